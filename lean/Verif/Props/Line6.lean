import Verif.Proofs.LineRun
import Verif.Props.Text6
import Verif.Props.Text8
import Verif.Props.Learn

/-! # C87, C88, C89, C90: the results of `extract_text6` -/

namespace Ppocr.Props
open Ppocr Spec

/-! ## C87: the text -/

/-- **C87** as stated: `result3` is the text of all candidates along the line. -/
def C87_statement : Prop :=
  ∀ (S : StdSort) (ws : List (List Nat)) (E : List FNode) (ls : List (List (List Nat))), DictOf S ws E → GoodWords ls →
    text6 E (ls.map (List.map encAll)) = .ok (encAll (saying ws ls))

/-- **C87**, what it is: the text without the separators, spaces and letters that are not recognised at the start of the line. -/
theorem C87_exact (S : StdSort) (ws : List (List Nat)) (E : List FNode) (ls : List (List (List Nat))) (hd : DictOf S ws E)
    (hg : GoodWords ls) : text6 E (ls.map (List.map encAll)) = .ok (encAll (saying ws (ls.dropWhile isStop))) :=
  text6_ok hd ls hg

/-- **C87**, partial: the full statement for a line that starts with a letter of a word. Missing: the other lines, see
`C87_exact`. -/
theorem C87_text_partial (S : StdSort) (ws : List (List Nat)) (E : List FNode) (ls : List (List (List Nat))) (hd : DictOf S ws E)
    (hg : GoodWords ls) (h : ∀ l, ls.head? = some l → isStop l = false) :
    text6 E (ls.map (List.map encAll)) = .ok (encAll (saying ws ls)) := by
  rw [C87_exact S ws E ls hd hg]
  cases ls with
  | nil => rfl
  | cons l ls => rw [List.dropWhile_cons_of_neg (by rw [h l rfl]; simp)]

theorem noWords (S : StdSort) : ∃ E, DictOf S [] E := by
  obtain ⟨E, hE, _⟩ := C40_accepts S [] (by simp) (by simp) (by decide)
  exact ⟨E, by simp, by simp, by decide, hE⟩

/-- **C87** is false: a quotation mark at the start of the line is lost. -/
theorem C87_wrong : ¬ C87_statement := by
  intro h
  obtain ⟨E, hd⟩ := noWords insertionSort
  have hg : GoodWords [[[34]], [[97]]] := by
    intro l hl w hw
    have : w = [34] ∨ w = [97] := by
      rcases List.mem_cons.1 hl with rfl | hl
      · exact .inl (List.mem_singleton.1 hw)
      · rw [List.mem_singleton.1 hl] at hw
        exact .inr (List.mem_singleton.1 hw)
    rcases this with rfl | rfl
    · exact ⟨by decide, fun c hc => by rw [List.mem_singleton.1 hc]; decide⟩
    · exact ⟨by decide, fun c hc => by rw [List.mem_singleton.1 hc]; decide⟩
  have h1 := h insertionSort [] E [[[34]], [[97]]] hd hg
  rw [C87_exact insertionSort [] E _ hd hg, Res.ok.injEq] at h1
  have s1 : isStop [[34]] = true := by decide
  have s2 : isStop [[97]] = false := by decide
  have h3 : runText [] [[[97]]] = [97] := by decide
  simp [List.dropWhile, s1, s2, saying, h3, sepText, firstOf, encAll, enc] at h1

/-- Letters `1|l`, `é`, `.`, none, a space, `1|l`, with `lé` in the dictionary: `lé.? 1`. -/
example : (do
    let E ← dictOf insertionSort [[108, 0xC3, 0xA9]]
    text6 E [[[49], [108]], [[0xC3, 0xA9]], [[46]], [], [[32]], [[49], [108]]]) = .ok [108, 0xC3, 0xA9, 46, 63, 32, 49] := by decide

/-- A quotation mark and a letter that is not recognised are lost before the first word and kept behind it. -/
example : (do
    let E ← dictOf insertionSort []
    text6 E [[[34]], [], [[97]], [[34]], []]) = .ok [97, 34, 63] := by decide

/-- Nothing but separators gives nothing. -/
example : text6 [] [[[46]], [], [[63]]] = .ok [] := by decide

/-! ## C88: the line -/

theorem reads_head {imgs : List Image} {ws : List Words} {a : Image} {o : Letter6} (h : Reads6 imgs ws a o) :
    o.cached.head? = some o.r2 := by
  by_cases h0 : o.amb = []
  · obtain ⟨h1, h2⟩ := h.unread h0
    rw [h1, h2]; rfl
  · obtain ⟨h1, h2⟩ := h.read h0
    rw [h1, h2]

/-- **C88**: `extract_text6` cuts the line at the boxes of C13. `result1` and `result2` have one word per letter, in the order of
the line, with a space behind each, the word of C85 for the picture of the letter. The candidates are those of C85 for
the first letter with a picture and those remembered for the others, with a space where more than four columns are blank.
The only other outcome is a division by zero, when the picture of a letter makes one. -/
theorem C88_line (S : StdSort) (imgs : List Image) (d : Datas) (ws : List Words) (hd : Datas.empty.loadAll imgs = .ok d)
    (hi : ∀ i ∈ imgs, Sized i) (hl : ws.length = imgs.length) (hne : [] ∉ ws) (hn : imgs.length + 63 < W32) :
    ∃ t, (do let p ← order6 S d ws; build6 p.2 p.1) = .ok t ∧ ∀ i, LineImage i →
      ∃ bs as, segment i = .ok bs ∧ Pictures i bs as ∧ as.length = bs.length ∧
        ((∃ (R : Image → Letter6) (l : Line6), (∀ a ∈ as, Reads6 imgs ws a (R a)) ∧
          lineLoop6 (computeLetter6 S t) i (i.bounds.w + 1) 0 ⟨[], [], [], [], []⟩ = .ok l ∧ l.amb = withGaps 0 bs (letterWords R [] as) ∧
          l.res1 = eachSpaced (fun a => (R a).r1) as ∧ l.res2 = eachSpaced (fun a => (R a).r2) as) ∨
        ((∃ a ∈ as, Jam6 imgs ws a) ∧ lineLoop6 (computeLetter6 S t) i (i.bounds.w + 1) 0 ⟨[], [], [], [], []⟩ = .ub)) := by
  obtain ⟨t, ht, hrun⟩ := C85_letter S imgs d ws hd hi hl hne hn
  exact ⟨t, ht, fun i hline => line6_run hline (fun _ _ => reads_head) hrun⟩

/-! ## C89: equal letters -/

/-- **C89** as stated: letters with the same picture have the same candidates. -/
def C89_statement : Prop :=
  ∀ (S : StdSort) (imgs : List Image) (d : Datas) (ws : List Words), Datas.empty.loadAll imgs = .ok d → (∀ i ∈ imgs, Sized i) →
    ws.length = imgs.length → [] ∉ ws → imgs.length + 63 < W32 →
    ∃ t, (do let p ← order6 S d ws; build6 p.2 p.1) = .ok t ∧ ∀ (i : Image) (bs : List Box) (as : List Image) (l : Line6), LineImage i →
      segment i = .ok bs → Pictures i bs as → lineLoop6 (computeLetter6 S t) i (i.bounds.w + 1) 0 ⟨[], [], [], [], []⟩ = .ok l →
      ∃ cs : List Words, cs.length = bs.length ∧ l.amb = withGaps 0 bs cs ∧
        ∀ (k m : Nat) (a : Image), as[k]? = some a → as[m]? = some a → cs[k]? = cs[m]?

theorem pictures_unique {i : Image} : ∀ {bs : List Box} {as as' : List Image}, Pictures i bs as → Pictures i bs as' → as = as'
  | [], [], [], _, _ => rfl
  | [], [], _ :: _, _, h => by simp [Pictures] at h
  | [], _ :: _, _, h, _ => by simp [Pictures] at h
  | _ :: _, [], _, h, _ => by simp [Pictures] at h
  | _ :: _, _ :: _, [], _, h => by simp [Pictures] at h
  | b :: bs, a :: as, a' :: as', ⟨h1, h2⟩, ⟨h3, h4⟩ => by
    rw [h1, Res.ok.injEq] at h3
    rw [h3, pictures_unique h2 h4]

theorem letterWords_length (R : Image → Letter6) : ∀ (as seen : List Image), (letterWords R seen as).length = as.length
  | [], _ => rfl
  | a :: as, seen => by rw [letterWords, List.length_cons, letterWords_length R as, List.length_cons]

theorem letterWords_get (R : Image → Letter6) : ∀ (as seen : List Image) (k : Nat) (a : Image), as[k]? = some a →
    (letterWords R seen as)[k]? = some (if a ∈ seen ∨ a ∈ as.take k then (R a).cached else (R a).amb)
  | [], _, _, _, h => by simp at h
  | b :: as, seen, 0, a, h => by
    simp only [List.getElem?_cons_zero, Option.some.injEq] at h
    subst h
    simp [letterWords]
  | b :: as, seen, k + 1, a, h => by
    rw [List.getElem?_cons_succ] at h
    rw [letterWords, List.getElem?_cons_succ, letterWords_get R as (b :: seen) k a h, List.take_succ_cons]
    have : (a ∈ b :: seen ∨ a ∈ as.take k) ↔ (a ∈ seen ∨ a ∈ b :: as.take k) := by
      simp only [List.mem_cons]
      constructor
      · rintro ((h | h) | h)
        · exact .inr (.inl h)
        · exact .inl h
        · exact .inr (.inr h)
      · rintro (h | h | h)
        · exact .inl (.inr h)
        · exact .inl (.inl h)
        · exact .inr h
    simp only [this]

/-- **C89**, partial: the letters whose picture is recognised; the candidates are the words of the chosen pictures (C85). Of a
picture that is not recognised, the first letter has no candidates, and each other one has the candidate "_". Missing: that these
are the same (`C89_wrong`). -/
theorem C89_same_partial (S : StdSort) (imgs : List Image) (d : Datas) (ws : List Words) (hd : Datas.empty.loadAll imgs = .ok d)
    (hi : ∀ i ∈ imgs, Sized i) (hl : ws.length = imgs.length) (hne : [] ∉ ws) (hn : imgs.length + 63 < W32) :
    ∃ t, (do let p ← order6 S d ws; build6 p.2 p.1) = .ok t ∧ ∀ (i : Image) (bs : List Box) (as : List Image) (l : Line6), LineImage i →
      segment i = .ok bs → Pictures i bs as → lineLoop6 (computeLetter6 S t) i (i.bounds.w + 1) 0 ⟨[], [], [], [], []⟩ = .ok l →
      ∃ cs : List Words, cs.length = bs.length ∧ l.amb = withGaps 0 bs cs ∧
        (∀ (k m : Nat) (a : Image), as[k]? = some a → as[m]? = some a → (∃ g, Chosen6 imgs ws a g) → cs[k]? = cs[m]?) ∧
        (∀ (k : Nat) (a : Image), as[k]? = some a → (∃ g, Chosen6 imgs ws a g) → ∃ c, cs[k]? = some c ∧
          ∀ w, w ∈ c ↔ ∃ (g : Nat) (v : Words), Chosen6 imgs ws a g ∧ ws[g]? = some v ∧ w ∈ v) ∧
        ∀ (k : Nat) (a : Image), as[k]? = some a → (∀ g, ¬ Chosen6 imgs ws a g) →
          cs[k]? = some (if a ∈ as.take k then [[95]] else []) := by
  obtain ⟨t, ht, hrun⟩ := C88_line S imgs d ws hd hi hl hne hn
  refine ⟨t, ht, ?_⟩
  intro i bs as l hline he hp hloop
  obtain ⟨bs', as', he', hp', hlen, hres⟩ := hrun i hline
  rw [he, Res.ok.injEq] at he'
  subst he'
  have := pictures_unique hp hp'
  subst this
  rcases hres with ⟨R, l', hR, hloop', hamb, _⟩ | ⟨_, hub⟩
  · rw [hloop, Res.ok.injEq] at hloop'
    subst hloop'
    have hchosen : ∀ a ∈ as, (∃ g, Chosen6 imgs ws a g) ↔ (R a).amb ≠ [] := by
      intro a ha
      constructor
      · rintro ⟨g, hg⟩ h0
        have hv : ∃ v, ws[g]? = some v := by
          have : ∃ b : Image, imgs[g]? = some b := by
            rcases hg with ⟨b, hb, _⟩ | ⟨_, ⟨b, hb, _⟩, _⟩ <;> exact ⟨b, hb⟩
          obtain ⟨b, hb⟩ := this
          have := (List.getElem?_eq_some_iff.1 hb).1
          exact ⟨_, List.getElem?_eq_getElem (by omega)⟩
        obtain ⟨v, hv⟩ := hv
        cases v with
        | nil => exact hne (List.mem_of_getElem? hv)
        | cons w v =>
          have := ((hR a ha).words w).2 ⟨g, w :: v, hg, hv, by simp⟩
          rw [h0] at this
          cases this
      · intro h0
        obtain ⟨w, hw⟩ := List.exists_mem_of_ne_nil _ h0
        obtain ⟨g, _, hg, _⟩ := ((hR a ha).words w).1 hw
        exact ⟨g, hg⟩
    have hget : ∀ (k : Nat) a, as[k]? = some a →
        (letterWords R [] as)[k]? = some (if a ∈ as.take k then (R a).cached else (R a).amb) := by
      intro k a hk
      rw [letterWords_get R as [] k a hk]
      simp
    have hread : ∀ (k : Nat) a, as[k]? = some a → (∃ g, Chosen6 imgs ws a g) → (letterWords R [] as)[k]? = some (R a).amb := by
      intro k a hk hc
      have ham := List.mem_of_getElem? hk
      rw [hget k a hk, ((hR a ham).read ((hchosen a ham).1 hc)).1]
      simp
    refine ⟨letterWords R [] as, by rw [letterWords_length, hlen], hamb, ?_, ?_, ?_⟩
    · intro k m a hk hm hc
      rw [hread k a hk hc, hread m a hm hc]
    · intro k a hk hc
      exact ⟨_, hread k a hk hc, (hR a (List.mem_of_getElem? hk)).words⟩
    · intro k a hk hc
      have ham := List.mem_of_getElem? hk
      have h0 : (R a).amb = [] := Classical.byContradiction fun h => by
        obtain ⟨g, hg⟩ := (hchosen a ham).2 h
        exact hc g hg
      rw [hget k a hk, ((hR a ham).unread h0).1, h0]
  · rw [hloop] at hub
    cases hub

/-- Two columns. -/
def sticks : Image := ⟨⟨4, 3⟩, [120, 45, 120, 45, 120, 45, 120, 45, 120, 45, 120, 45]⟩

theorem sticks_segment : segment sticks = .ok [⟨0, 0, 1, 3⟩, ⟨2, 0, 1, 3⟩] := by decide +kernel

theorem sticks_line : LineImage sticks := by
  refine ⟨⟨rfl, by decide, by decide, by decide⟩, by decide, by decide, by decide, .inl (by decide), ?_⟩
  intro bs h
  rw [sticks_segment] at h
  cases h
  decide

/-- What `extract_text6` makes of the line `i` when taught `imgs` with the words `ws`. -/
def line6 (imgs : List Image) (ws : List Words) (dict : List (List Nat)) (i : Image) : Res Answer6 := do
  let d ← Datas.empty.loadAll imgs
  let p ← order6 insertionSort d ws
  let t ← build6 p.2 p.1
  let E ← dictOf insertionSort dict
  extract6 (computeLetter6 insertionSort t) E i

/-- **C89** is false: two equal columns, when a block is all that was taught, have different candidates. -/
theorem C89_wrong : ¬ C89_statement := by
  intro h
  have hb : Sized block := small_letters block (by simp)
  obtain ⟨d, hd, _⟩ := learnt_loadAll [block] (by simpa using hb)
  obtain ⟨t, ht, h1⟩ := h insertionSort [block] d [[[111]]] hd (by simpa using hb) rfl (by decide) (by decide)
  have hp : Pictures sticks [⟨0, 0, 1, 3⟩, ⟨2, 0, 1, 3⟩] [stick, stick] :=
    ⟨by decide +kernel, by decide +kernel, trivial⟩
  have hrun : (do
      let d ← Datas.empty.loadAll [block]
      let t ← (do let p ← order6 insertionSort d [[[111]]]; build6 p.2 p.1)
      let l ← lineLoop6 (computeLetter6 insertionSort t) sticks 5 0 ⟨[], [], [], [], []⟩
      return l.amb) = .ok [[], [[95]]] := by decide +kernel
  rw [hd, Res.ok_bind, ht, Res.ok_bind] at hrun
  obtain ⟨l, hl, hamb⟩ := Res.bind_eq_ok.1 hrun
  obtain ⟨cs, hlen, hcs, hsame⟩ := h1 sticks _ _ l sticks_line sticks_segment hp hl
  rw [Res.pure_eq, Res.ok.injEq] at hamb
  rw [hamb] at hcs
  have h01 := hsame 0 1 stick rfl rfl
  match cs, hlen with
  | [c, c'], _ =>
    simp [withGaps] at hcs
    obtain ⟨rfl, rfl⟩ := hcs
    cases h01

/-- The two columns in the results: `result3` has lost the first one. -/
example : line6 [block] [[[111]]] [] sticks = .ok ⟨[95, 32, 95, 32], [95, 32, 95, 32], [95]⟩ := by decide +kernel

/-- A block and, behind a space, the same block and twice the same column: the first column is shown as `?`, the second as `_`. -/
example : line6 [block] [[[111], [48]]] [] ⟨⟨14, 3⟩, [120, 120, 45, 45, 45, 45, 45, 120, 120, 45, 120, 45, 120, 45,
      120, 120, 45, 45, 45, 45, 45, 120, 120, 45, 120, 45, 120, 45, 45, 45, 45, 45, 45, 45, 45, 45, 45, 45, 120, 45, 120, 45]⟩ =
    .ok ⟨[111, 32, 111, 32, 95, 32, 95, 32], [111, 32, 111, 32, 95, 32, 95, 32], [111, 32, 111, 63, 95]⟩ := by decide +kernel

/-! ## C90: the program -/

theorem uniqueFrom_head : ∀ (l : Words) (a : List Nat) (r : Words),
    uniqueFrom (fun a b => .ok (decide (a = b))) a l = .ok r → r.head? = some a
  | [], a, r, h => by
    cases h; rfl
  | b :: l, a, r, h => by
    rw [uniqueFrom, Res.ok_bind] at h
    by_cases e : a = b
    · rw [if_pos (by simpa using e)] at h
      exact uniqueFrom_head l a r h
    · rw [if_neg (by simpa using e)] at h
      obtain ⟨r', _, h⟩ := Res.bind_eq_ok.1 h
      cases h; rfl

/-- The words of a glyph. -/
def glyphWords (g : LGlyph) : Words := g.views.map LView.word

theorem uniqueWords_same (g : LGlyph) : ∃ w, uniqueWords g = .ok w ∧ w.head? = (glyphWords g).head? ∧ ∀ x, x ∈ w ↔ x ∈ glyphWords g := by
  obtain ⟨r, e, _, hm⟩ := uniqueBy_mem (glyphWords g)
  refine ⟨r, e, ?_, hm⟩
  cases hg : glyphWords g with
  | nil => rw [hg] at e; cases e; rfl
  | cons a l => rw [hg] at e; exact uniqueFrom_head l a r e

/-- Lists of words with the same words and the same first ones. -/
structure SameWords (ws us : List Words) : Prop where
  len : ws.length = us.length
  same : ∀ (k : Nat) (v u : Words), ws[k]? = some v → us[k]? = some u → v.head? = u.head? ∧ ∀ x, x ∈ v ↔ x ∈ u

theorem SameWords.symm {ws us : List Words} (h : SameWords ws us) : SameWords us ws :=
  ⟨h.len.symm, fun k v u hv hu => ⟨(h.same k u v hu hv).1.symm, fun x => ((h.same k u v hu hv).2 x).symm⟩⟩

theorem SameWords.get {ws us : List Words} (h : SameWords ws us) {k : Nat} {v : Words} (hv : ws[k]? = some v) :
    ∃ u, us[k]? = some u ∧ v.head? = u.head? ∧ ∀ x, x ∈ v ↔ x ∈ u := by
  have hlt := (List.getElem?_eq_some_iff.1 hv).1
  have hu := List.getElem?_eq_getElem (l := us) (i := k) (by rw [← h.len]; exact hlt)
  exact ⟨_, hu, h.same k v _ hv hu⟩

theorem SameWords.twin {ws us : List Words} (h : SameWords ws us) {g j : Nat} (ht : Twin6 ws g j) : Twin6 us g j := by
  obtain ⟨hne, v, u, hv, hu, e⟩ := ht
  obtain ⟨v', hv', e1, _⟩ := h.get hv
  obtain ⟨u', hu', e2, _⟩ := h.get hu
  exact ⟨hne, v', u', hv', hu', by rw [← e1, ← e2, e]⟩

theorem SameWords.chosen {ws us : List Words} (h : SameWords ws us) {imgs : List Image} {a : Image} {g : Nat}
    (hc : Chosen6 imgs ws a g) : Chosen6 imgs us a g := by
  rcases hc with hc | ⟨hn, hk, ht⟩
  · exact .inl hc
  · refine .inr ⟨hn, hk, ?_⟩
    rcases ht with ht | ⟨j, b, hj, hb, hz⟩
    · exact .inl fun j hj => ht j (h.symm.twin hj)
    · exact .inr ⟨j, b, h.twin hj, hb, hz⟩

theorem SameWords.reads {ws us : List Words} (h : SameWords ws us) {imgs : List Image} {a : Image} {o : Letter6}
    (hr : Reads6 imgs ws a o) : Reads6 imgs us a o where
  words := by
    intro w
    rw [hr.words w]
    constructor
    · rintro ⟨g, v, hc, hv, hw⟩
      obtain ⟨u, hu, _, hm⟩ := h.get hv
      exact ⟨g, u, h.chosen hc, hu, (hm w).1 hw⟩
    · rintro ⟨g, v, hc, hv, hw⟩
      obtain ⟨u, hu, _, hm⟩ := h.symm.get hv
      exact ⟨g, u, h.symm.chosen hc, hu, (hm w).1 hw⟩
  read := hr.read
  unread := hr.unread
  first := by
    rcases hr.first with ⟨g, i, v, hi, hn, hv, hw⟩ | h0
    · obtain ⟨u, hu, e, _⟩ := h.get hv
      exact .inl ⟨g, i, u, hi, hn, hu, by rw [← e]; exact hw⟩
    · exact .inr h0
  same := hr.same

theorem SameWords.jam {ws us : List Words} (h : SameWords ws us) {imgs : List Image} {a : Image} (hj : Jam6 imgs ws a) :
    Jam6 imgs us a := by
  obtain ⟨hm, g, i, j, b, h1, h2, h3, h4, h5⟩ := hj
  exact ⟨hm, g, i, j, b, h1, h2, h3, h.twin h4, h5⟩

theorem allWords_same : ∀ gs : List LGlyph, ∃ ws, allWords gs = .ok ws ∧ SameWords ws (gs.map glyphWords)
  | [] => ⟨[], rfl, rfl, by simp⟩
  | g :: gs => by
    obtain ⟨w, e, h1, h2⟩ := uniqueWords_same g
    obtain ⟨ws, e', h⟩ := allWords_same gs
    refine ⟨w :: ws, by rw [allWords, e, Res.ok_bind, e']; rfl, by simp [h.len], ?_⟩
    intro k v u hv hu
    cases k with
    | zero =>
      simp only [List.map_cons, List.getElem?_cons_zero, Option.some.injEq] at hv hu
      subst hv; subst hu
      exact ⟨h1, h2⟩
    | succ k => exact h.same k v u hv hu

/-- Every word that is read is one of those taught, "_" or a space. -/
theorem withGaps_mem : ∀ (x : Nat) (bs : List Box) (cs : List Words) (c : Words), c ∈ withGaps x bs cs → c = [[32]] ∨ c ∈ cs
  | _, [], _, _, h => by simp [withGaps] at h
  | _, _ :: _, [], _, h => by simp [withGaps] at h
  | x, b :: bs, d :: cs, c, h => by
    rw [withGaps, List.mem_append, List.mem_cons] at h
    rcases h with h | h | h
    · left
      split at h
      · exact List.mem_singleton.1 h
      · cases h
    · exact .inr (by simp [h])
    · rcases withGaps_mem _ bs cs c h with h | h
      · exact .inl h
      · exact .inr (by simp [h])

theorem letterWords_mem (R : Image → Letter6) : ∀ (as seen : List Image) (c : Words), c ∈ letterWords R seen as →
    ∃ a ∈ as, c = (R a).amb ∨ c = (R a).cached
  | [], _, _, h => by simp [letterWords] at h
  | b :: as, seen, c, h => by
    rw [letterWords, List.mem_cons] at h
    rcases h with h | h
    · refine ⟨b, by simp, ?_⟩
      split at h
      · exact .inr h
      · exact .inl h
    · obtain ⟨a, ha, h⟩ := letterWords_mem R as (b :: seen) c h
      exact ⟨a, by simp [ha], h⟩

/-- Words that are strings of characters. -/
def Spelled (w : List Nat) : Prop := ∃ c : List Nat, c ≠ [] ∧ (∀ x ∈ c, Scalar x) ∧ w = encAll c

theorem spelled_lists : ∀ amb : List Words, (∀ l ∈ amb, ∀ w ∈ l, Spelled w) →
    ∃ cs : List (List (List Nat)), GoodWords cs ∧ cs.map (List.map encAll) = amb := by
  have one : ∀ l : Words, (∀ w ∈ l, Spelled w) → ∃ c : List (List Nat), (∀ w ∈ c, w ≠ [] ∧ ∀ x ∈ w, Scalar x) ∧ c.map encAll = l := by
    intro l
    induction l with
    | nil => intro _; exact ⟨[], by simp, rfl⟩
    | cons w l ih =>
      intro h
      obtain ⟨c, h1, h2, h3⟩ := h w (by simp)
      obtain ⟨cs, h4, h5⟩ := ih fun x hx => h x (by simp [hx])
      refine ⟨c :: cs, ?_, by rw [List.map_cons, ← h3, h5]⟩
      intro x hx
      rcases List.mem_cons.1 hx with rfl | hx
      · exact ⟨h1, h2⟩
      · exact h4 x hx
  intro amb
  induction amb with
  | nil => intro _; exact ⟨[], fun l hl => by (cases hl), rfl⟩
  | cons l amb ih =>
    intro h
    obtain ⟨c, h1, h2⟩ := one l (h l (by simp))
    obtain ⟨cs, h3, h4⟩ := ih fun x hx => h x (by simp [hx])
    refine ⟨c :: cs, ?_, by rw [List.map_cons, h2, h4]⟩
    intro x hx
    rcases List.mem_cons.1 hx with rfl | hx
    · exact h1
    · exact h3 x hx

/-- The program with the files that the learning tools write for the glyphs `gs` and some line: its tables. -/
theorem program6_ready (S : StdSort) (f : ProgFiles) (gs : List LGlyph) (d : Datas) (tg : List Nat)
    (hg : ∀ g ∈ gs, g.Good) (hv : ∀ g ∈ gs, g.views ≠ []) (hs : ∀ g ∈ gs, Sized g.img) (hlt : gs.length + 63 < W32)
    (hd : Datas.empty.loadAll (gs.map LGlyph.img) = .ok d) (ht : glyphsWrite gs = .ok tg) (hfg : f.glyphs = some tg)
    (hfd : f.datas = some (datasWrite d)) :
    ∃ (ws : List Words) (idx : List Nat) (imgs' : List Image) (ws' : List Words) (d' : Datas) (t : Tab6), allWords gs = .ok ws ∧
      SameWords ws (gs.map glyphWords) ∧ Moved6 idx (gs.map LGlyph.img) ws imgs' ws' ∧ Ready6 imgs' ws' d' t ∧
      ∀ image dict i E, loadImage image 128 = .ok i → loadDict dict = .ok E →
        program6 S { f with image := image, dict := dict } = extract6 (computeLetter6 S t) E i := by
  have hsi : ∀ j ∈ gs.map LGlyph.img, Sized j := by simpa using hs
  obtain ⟨d', e, hL⟩ := learnt_loadAll (gs.map LGlyph.img) hsi
  rw [hd, Res.ok.injEq] at e
  subst e
  have hL' : Learnt (gs.map LGlyph.img) ⟨d.tables, Ctxs.fresh⟩ := ⟨hL.strats, hL.rows⟩
  obtain ⟨hfit, hsz⟩ := loaded_fits hsi (by simp only [List.length_map, W32] at *; omega) hd
  rw [List.length_map] at hsz
  obtain ⟨t, e1, e2⟩ := C46_round_trip gs [] hg
  rw [ht, Res.ok.injEq] at e1
  subst e1
  obtain ⟨ws, ew, hsame⟩ := allWords_same gs
  have hwl : ws.length = gs.length := by rw [hsame.len, List.length_map]
  have hne : [] ∉ ws := by
    intro h
    obtain ⟨k, hk⟩ := List.getElem?_of_mem h
    obtain ⟨u, hu, e, _⟩ := hsame.get hk
    rw [List.getElem?_map] at hu
    obtain ⟨g, hgk, rfl⟩ := Option.map_eq_some_iff.1 hu
    have := hv g (List.mem_of_getElem? hgk)
    unfold glyphWords at e
    cases hvs : g.views with
    | nil => exact this hvs
    | cons v vs => rw [hvs] at e; cases e
  have hload : loadDatas f.datas = .ok ⟨d.tables, Ctxs.fresh⟩ := by
    rw [hfd]
    unfold loadDatas openText
    simp only [Res.ok_bind]
    rw [datasRead_write hfit]
    rfl
  have hlg : loadLGlyphs f.glyphs = .ok gs := by
    rw [hfg]
    unfold loadLGlyphs openText
    simp only [Res.ok_bind]
    rw [e2]
    rfl
  have hsz' : (⟨d.tables, Ctxs.fresh⟩ : Datas).size = gs.length := hsz
  obtain ⟨idx, imgs', ws', d', t, e3, e4, hm, hr⟩ := tables6_ok S hL' hsi (by rw [hwl, List.length_map]) hne
    (by rw [List.length_map]; exact hlt)
  refine ⟨ws, idx, imgs', ws', d', t, ew, hsame, hm, hr, ?_⟩
  · intro image dict i E himg hE
    unfold program6
    rw [hE, Res.ok_bind, hload, Res.ok_bind, hlg, Res.ok_bind, if_neg (by rw [hsz']; simp), ew, Res.ok_bind, e3, Res.ok_bind]
    simp only []
    rw [e4, Res.ok_bind, himg, Res.ok_bind]

/-- The program with the files that the learning tools write for the glyphs `gs` and some line: what it makes of the letters. -/
theorem program6_letters (S : StdSort) (f : ProgFiles) (gs : List LGlyph) (d : Datas) (tg : List Nat)
    (hg : ∀ g ∈ gs, g.Good) (hv : ∀ g ∈ gs, g.views ≠ []) (hs : ∀ g ∈ gs, Sized g.img) (hlt : gs.length + 63 < W32)
    (hd : Datas.empty.loadAll (gs.map LGlyph.img) = .ok d) (ht : glyphsWrite gs = .ok tg) (hfg : f.glyphs = some tg)
    (hfd : f.datas = some (datasWrite d)) :
    ∃ t : Tab6, (∀ image dict i E, loadImage image 128 = .ok i → loadDict dict = .ok E →
        program6 S { f with image := image, dict := dict } = extract6 (computeLetter6 S t) E i) ∧
      ∀ a r, Sized a → a.rotate90 = .ok r →
        (∃ o, computeLetter6 S t a r = .ok o ∧ Reads6 (gs.map LGlyph.img) (gs.map glyphWords) a o) ∨
        (computeLetter6 S t a r = .ub ∧ Jam6 (gs.map LGlyph.img) (gs.map glyphWords) a) := by
  obtain ⟨ws, idx, imgs', ws', d', t, _, hsame, hm, hr, hprog⟩ := program6_ready S f gs d tg hg hv hs hlt hd ht hfg hfd
  refine ⟨t, hprog, ?_⟩
  · intro a r ha har
    rcases letter6_run S hr ha har with ⟨o, ho, h⟩ | ⟨ho, h⟩
    · exact .inl ⟨o, ho, hsame.reads (hm.reads h)⟩
    · exact .inr ⟨ho, hsame.jam (hm.jam h)⟩

/-- **C90**: `extract_text6` on the files that the learning tools write for the glyphs `gs`, a dictionary and a line. Either it
prints, per letter of the line, the two words of C85 for its picture, and the text of C87 for the candidates of C88; or it
divides by zero, and the picture of a letter makes it do so. -/
theorem C90_program (S S' : StdSort) (f : ProgFiles) (gs : List LGlyph) (d : Datas) (dict : List (List Nat)) (E : List FNode)
    (tg : List Nat) (i : Image) (hg : ∀ g ∈ gs, g.Good) (hv : ∀ g ∈ gs, g.views ≠ []) (hs : ∀ g ∈ gs, Sized g.img)
    (hw : ∀ g ∈ gs, ∀ w ∈ glyphWords g, Spelled w) (hlt : gs.length + 63 < W32)
    (hd : Datas.empty.loadAll (gs.map LGlyph.img) = .ok d) (ht : glyphsWrite gs = .ok tg) (hfg : f.glyphs = some tg)
    (hfd : f.datas = some (datasWrite d)) (hE : loadDict f.dict = .ok E) (hdict : DictOf S' dict E)
    (himg : loadImage f.image 128 = .ok i) (hi : LineImage i) :
    ∃ bs as, segment i = .ok bs ∧ Pictures i bs as ∧ as.length = bs.length ∧
      ((∃ (R : Image → Letter6) (cs : List (List (List Nat))),
        (∀ a ∈ as, Reads6 (gs.map LGlyph.img) (gs.map glyphWords) a (R a)) ∧ GoodWords cs ∧
        cs.map (List.map encAll) = withGaps 0 bs (letterWords R [] as) ∧
        program6 S f = .ok ⟨eachSpaced (fun a => (R a).r1) as, eachSpaced (fun a => (R a).r2) as, encAll (saying dict (cs.dropWhile isStop))⟩) ∨
      ((∃ a ∈ as, Jam6 (gs.map LGlyph.img) (gs.map glyphWords) a) ∧ program6 S f = .ub)) := by
  obtain ⟨t, hprog, hlet⟩ := program6_letters S f gs d tg hg hv hs hlt hd ht hfg hfd
  have hprog : program6 S f = extract6 (computeLetter6 S t) E i := hprog f.image f.dict i E himg hE
  obtain ⟨bs, as, hseg, hp, hal, hres⟩ := line6_run (F := computeLetter6 S t) (Rd := Reads6 (gs.map LGlyph.img) (gs.map glyphWords))
    (Jm := Jam6 (gs.map LGlyph.img) (gs.map glyphWords)) hi (fun _ _ => reads_head) hlet
  refine ⟨bs, as, hseg, hp, hal, ?_⟩
  rcases hres with ⟨R, l, hR, hloop, f1, f2, f3⟩ | ⟨hj, hub⟩
  · left
    have hspell : ∀ c ∈ l.amb, ∀ w ∈ c, Spelled w := by
      have h95 : Spelled [95] := ⟨[95], by decide, fun x hx => by rw [List.mem_singleton.1 hx]; decide, by decide⟩
      have hamb : ∀ a ∈ as, ∀ w ∈ (R a).amb, Spelled w := by
        intro a ha w hwm
        obtain ⟨g, v, _, hgv, hwv⟩ := ((hR a ha).words w).1 hwm
        rw [List.getElem?_map] at hgv
        obtain ⟨gl, hgl, rfl⟩ := Option.map_eq_some_iff.1 hgv
        exact hw gl (List.mem_of_getElem? hgl) w hwv
      intro c hc w hwc
      rw [f1] at hc
      rcases withGaps_mem _ _ _ _ hc with rfl | hc
      · rw [List.mem_singleton.1 hwc]
        exact ⟨[32], by decide, fun x hx => by rw [List.mem_singleton.1 hx]; decide, by decide⟩
      · obtain ⟨a, ha, rfl | rfl⟩ := letterWords_mem R as [] c hc
        · exact hamb a ha w hwc
        · by_cases h0 : (R a).amb = []
          · rw [((hR a ha).unread h0).1] at hwc
            rw [List.mem_singleton.1 hwc]; exact h95
          · rw [((hR a ha).read h0).1] at hwc
            exact hamb a ha w hwc
    obtain ⟨cs, hgood, hcs⟩ := spelled_lists l.amb hspell
    refine ⟨R, cs, hR, hgood, hcs.trans f1, ?_⟩
    rw [hprog]
    unfold extract6
    rw [hloop, Res.ok_bind, ← hcs, text6_ok hdict cs hgood, Res.ok_bind, f2, f3]
    rfl
  · right
    refine ⟨hj, ?_⟩
    rw [hprog]
    unfold extract6
    rw [hub]
    rfl

/-- Two glyphs, a block with the words `o` and `0` and the column, as files; the line is a column, two blocks and the same column, and `00` is
in the dictionary. Neither column is recognised (C86): the first is lost, the second is `_` and belongs to the word, which is not `00` then. -/
example : (do
    let gs : List LGlyph := [⟨block, [⟨bytes "o", bytes "f", 0⟩, ⟨bytes "o", bytes "h", 0⟩, ⟨bytes "0", bytes "f", 0⟩]⟩, ⟨stick, [⟨bytes "l", bytes "f", 0⟩]⟩]
    let d ← Datas.empty.loadAll (gs.map LGlyph.img)
    let tg ← glyphsWrite gs
    program6 insertionSort ⟨some tg, some (datasWrite d), ppm ⟨⟨10, 3⟩, [120, 45, 120, 120, 45, 120, 120, 45, 120, 45,
      120, 45, 120, 120, 45, 120, 120, 45, 120, 45, 120, 45, 45, 45, 45, 45, 45, 45, 120, 45]⟩, none, some (some (bytes "48 1 1 0\n48 1 0 1\n"))⟩) =
    .ok ⟨bytes "_ o o _ ", bytes "_ o o _ ", bytes "oo_"⟩ := by decide +kernel

end Ppocr.Props

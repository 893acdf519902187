import Verif.Proofs.Order6
import Verif.Props.Program

/-! # C84, C85, C86: the letters in `extract_text6` -/

namespace Ppocr.Props
open Ppocr Spec

/-! ## C84: the features of a letter -/

/-- **C84** as stated: of a letter `extract_text6` computes the features that learning it stores. -/
def C84_statement : Prop :=
  ∀ (i r : Image) (d : Datas), Sized i → i.rotate90 = .ok r → Datas.empty.loadAll [i] = .ok d →
    ∀ s ∈ registered, ∃ v, d.get s = [v] ∧ toolLoad s i r = .ok v

theorem img_registered : ∀ s ∈ registered, (s.1, Policy.img) ∈ registered := by decide

/-- **C84**, what it computes: for every strategy, the feature that is stored for the picture itself, also where the feature
of the turned picture is meant. Missing: the latter, which is another number in general (`C84_wrong`). -/
theorem C84_features_partial (i r : Image) (d : Datas) (hi : Sized i) (hr : i.rotate90 = .ok r)
    (hd : Datas.empty.loadAll [i] = .ok d) :
    (∀ s ∈ registered, ∃ v, d.get (s.1, .img) = [v] ∧ toolLoad s i r = .ok v) ∧
      (r = i → ∀ s ∈ registered, ∃ v, d.get s = [v] ∧ toolLoad s i r = .ok v) := by
  obtain ⟨d', e, hL⟩ := learnt_loadAll [i] (by simpa using hi)
  rw [hd, Res.ok.injEq] at e
  subst e
  have key : ∀ s ∈ registered, ∃ v, d.get s = [v] ∧ feature s i r = .ok v := by
    intro s hs
    obtain ⟨hl, h⟩ := get_learnt hL hs
    obtain ⟨v, h1, h2⟩ := h 0 i r rfl hr
    refine ⟨v, ?_, h2⟩
    match hg : d.get s, hl, h1 with
    | [], hl, _ => cases hl
    | [w], _, h1 => cases h1; rfl
    | _ :: _ :: _, hl, _ => cases hl
  constructor
  · intro s hs
    obtain ⟨v, h1, h2⟩ := key _ (img_registered s hs)
    exact ⟨v, h1, by rw [toolLoad_eq]; exact h2⟩
  · rintro rfl s hs
    obtain ⟨v, h1, h2⟩ := key s hs
    refine ⟨v, h1, ?_⟩
    rw [toolLoad_eq, ← h2]
    obtain ⟨f, p⟩ := s
    cases p <;> rfl

/-- A column of three pixels. -/
def stick : Image := ⟨⟨1, 3⟩, [120, 120, 120]⟩

/-- The column lying. -/
def lying : Image := ⟨⟨3, 1⟩, [120, 120, 120]⟩

theorem stick_sized : Sized stick := ⟨⟨by decide, by decide, by decide, by decide⟩, by decide, by decide, by decide, by decide⟩

theorem stick_rotated : stick.rotate90 = .ok lying := by decide +kernel

/-- Learning a column stores 50 for the turned picture, `extract_text6` computes 100. -/
theorem stick_features : feature (.dvgravity2, .img90) stick lying = .ok (.num 50) ∧
    toolLoad (.dvgravity2, .img90) stick lying = .ok (.num 100) := by decide +kernel

/-- **C84** is false. -/
theorem C84_wrong : ¬ C84_statement := by
  intro h
  obtain ⟨d, hd, hL⟩ := learnt_loadAll [stick] (by simpa using stick_sized)
  obtain ⟨v, h1, h2⟩ := h stick lying d stick_sized stick_rotated hd (.dvgravity2, .img90) (by decide)
  obtain ⟨u, h3, h4⟩ := (get_learnt hL (s := (.dvgravity2, .img90)) (by decide)).2 0 stick lying rfl stick_rotated
  rw [stick_features.1] at h4
  rw [stick_features.2] at h2
  cases h2
  cases h4
  rw [h1] at h3
  cases h3

/-- `C84_features_partial` on a block, which looks the same turned. -/
example (d : Datas) (hd : Datas.empty.loadAll [block] = .ok d) : d.get (.dvgravity2, .img90) = [.num 100] := by
  have hb : Sized block := ⟨⟨by decide, by decide, by decide, by decide⟩, by decide, by decide, by decide, by decide⟩
  obtain ⟨v, h1, h2⟩ := (C84_features_partial block block d hb (by decide +kernel) hd).2 rfl (.dvgravity2, .img90) (by decide)
  rw [show toolLoad (.dvgravity2, .img90) block block = .ok (.num 100) by decide +kernel] at h2
  cases h2
  exact h1

/-! ## C85: the words of a letter -/

/-- **C85**: for learnt pictures of a reasonable size, each with words, the tables get built. Then every letter of a reasonable size
is read, its candidates being the words of the chosen pictures (`Reads6`), unless the search among the pictures of a word
divides by zero (`Jam6`). -/
theorem C85_letter (S : StdSort) (imgs : List Image) (d : Datas) (ws : List Words) (hd : Datas.empty.loadAll imgs = .ok d)
    (hi : ∀ i ∈ imgs, Sized i) (hl : ws.length = imgs.length) (hne : [] ∉ ws) (hn : imgs.length + 63 < W32) :
    ∃ t, (do let p ← order6 S d ws; build6 p.2 p.1) = .ok t ∧ ∀ a r, Sized a → a.rotate90 = .ok r →
      (∃ o, computeLetter6 S t a r = .ok o ∧ Reads6 imgs ws a o) ∨ (computeLetter6 S t a r = .ub ∧ Jam6 imgs ws a) := by
  obtain ⟨d', e, hL⟩ := learnt_loadAll imgs hi
  rw [hd, Res.ok.injEq] at e
  subst e
  obtain ⟨idx, imgs', ws', d', t, e1, e2, hm, hr⟩ := tables6_ok S hL hi hl hne hn
  refine ⟨t, by rw [e1, Res.ok_bind]; exact e2, ?_⟩
  intro a r ha har
  rcases letter6_run S hr ha har with ⟨o, ho, h⟩ | ⟨ho, h⟩
  · exact .inl ⟨o, ho, hm.reads h⟩
  · exact .inr ⟨ho, hm.jam h⟩

/-- **C85**, the letter is read if a picture matches it, if no picture clashes with it, or if no two pictures have the same
first word. -/
theorem C85_read (S : StdSort) (imgs : List Image) (d : Datas) (ws : List Words) (hd : Datas.empty.loadAll imgs = .ok d)
    (hi : ∀ i ∈ imgs, Sized i) (hl : ws.length = imgs.length) (hne : [] ∉ ws) (hn : imgs.length + 63 < W32) (a r : Image)
    (ha : Sized a) (hr : a.rotate90 = .ok r)
    (h : (∃ i ∈ imgs, Exact6 i a) ∨ (∀ i ∈ imgs, ¬ Clash i a) ∨
      ∀ (g j : Nat) (v u : Words), ws[g]? = some v → ws[j]? = some u → u.head? = v.head? → j = g) :
    ∃ t o, (do let p ← order6 S d ws; build6 p.2 p.1) = .ok t ∧ computeLetter6 S t a r = .ok o ∧ Reads6 imgs ws a o := by
  obtain ⟨t, ht, hrun⟩ := C85_letter S imgs d ws hd hi hl hne hn
  rcases hrun a r ha hr with ⟨o, ho, h'⟩ | ⟨_, hm, g, i, j, b, _, _, _, htw, hb, _, hc⟩
  · exact ⟨t, o, ht, ho, h'⟩
  · exfalso
    rcases h with ⟨i, him, he⟩ | h | h
    · obtain ⟨k, hk⟩ := List.getElem?_of_mem him
      exact hm k ⟨i, hk, he⟩
    · exact h b (List.mem_of_getElem? hb) hc
    · obtain ⟨hjg, v, u, e1, e2, e3⟩ := htw
      exact hjg (h g j v u e1 e2 e3)

/-- **C85**, two sorts give the same candidates up to their order. -/
theorem C85_sorts (S S' : StdSort) (imgs : List Image) (d : Datas) (ws : List Words) (hd : Datas.empty.loadAll imgs = .ok d)
    (hi : ∀ i ∈ imgs, Sized i) (hl : ws.length = imgs.length) (hne : [] ∉ ws) (hn : imgs.length + 63 < W32)
    (t t' : Tab6) (ht : (do let p ← order6 S d ws; build6 p.2 p.1) = .ok t) (ht' : (do let p ← order6 S' d ws; build6 p.2 p.1) = .ok t')
    (a r : Image) (ha : Sized a) (hr : a.rotate90 = .ok r) (o o' : Letter6) (ho : computeLetter6 S t a r = .ok o)
    (ho' : computeLetter6 S' t' a r = .ok o') (w : List Nat) : w ∈ o.amb ↔ w ∈ o'.amb := by
  have key : ∀ (S : StdSort) (t : Tab6) (o : Letter6), (do let p ← order6 S d ws; build6 p.2 p.1) = .ok t →
      computeLetter6 S t a r = .ok o → Reads6 imgs ws a o := by
    intro S t o ht ho
    obtain ⟨t1, e, h⟩ := C85_letter S imgs d ws hd hi hl hne hn
    rw [ht, Res.ok.injEq] at e
    subst e
    rcases h a r ha hr with ⟨o1, e, h⟩ | ⟨e, _⟩
    · rw [ho, Res.ok.injEq] at e
      subst e
      exact h
    · rw [ho] at e; cases e
  rw [(key S t o ht ho).words, (key S' t' o' ht' ho').words]

/-! ## C86: a learnt picture -/

/-- **C86** as stated: a letter that looks exactly like a learnt picture has its words among its candidates. -/
def C86_statement : Prop :=
  ∀ (S : StdSort) (imgs : List Image) (d : Datas) (ws : List Words), Datas.empty.loadAll imgs = .ok d → (∀ i ∈ imgs, Sized i) →
    ws.length = imgs.length → [] ∉ ws → imgs.length + 63 < W32 →
    ∃ t, (do let p ← order6 S d ws; build6 p.2 p.1) = .ok t ∧ ∀ (g : Nat) (i r : Image) (v : Words), imgs[g]? = some i →
      i.rotate90 = .ok r → ws[g]? = some v → ∃ o, computeLetter6 S t i r = .ok o ∧ ∀ w ∈ v, w ∈ o.amb

/-- **C86**, partial: for the pictures whose features have the same tens turned, for example those that look the same turned. Missing:
the others (`C86_lost`, `C86_wrong`). -/
theorem C86_turned_partial (S : StdSort) (imgs : List Image) (d : Datas) (ws : List Words) (hd : Datas.empty.loadAll imgs = .ok d)
    (hi : ∀ i ∈ imgs, Sized i) (hl : ws.length = imgs.length) (hne : [] ∉ ws) (hn : imgs.length + 63 < W32) :
    ∃ t, (do let p ← order6 S d ws; build6 p.2 p.1) = .ok t ∧ ∀ (g : Nat) (i r : Image) (v : Words), imgs[g]? = some i →
      i.rotate90 = .ok r → ws[g]? = some v →
      (r = i ∨ ∀ s ∈ simpleStrats, ∃ x y, feature (s.1, .img) i r = .ok (.num x) ∧ feature (s.1, .img90) i r = .ok (.num y) ∧ x / 10 = y / 10) →
      ∃ o, computeLetter6 S t i r = .ok o ∧ ∀ w ∈ v, w ∈ o.amb := by
  obtain ⟨t, ht, hrun⟩ := C85_letter S imgs d ws hd hi hl hne hn
  refine ⟨t, ht, ?_⟩
  intro g i r v hg hr hv hc
  have hsi := hi i (List.mem_of_getElem? hg)
  have hval := val6_ok hsi (hsi.rotated hr)
  have hex : Exact6 i i := by
    refine ⟨r, r, hr, hr, fun s hs => ?_⟩
    obtain ⟨f, p⟩ := s
    cases p with
    | img => exact ⟨_, _, (hval _ hs).1, (hval _ hs).1, rfl⟩
    | img90 =>
      rcases hc with rfl | hc
      · exact ⟨_, _, (hval _ hs).1, (hval _ hs).1, rfl⟩
      · obtain ⟨x, y, h1, h2, h3⟩ := hc _ hs
        exact ⟨y, x, h2, h1, h3.symm⟩
  rcases hrun i r hsi hr with ⟨o, ho, h⟩ | ⟨_, hm, _⟩
  · exact ⟨o, ho, fun w hw => (h.words w).2 ⟨g, v, .inl ⟨i, hg, hex⟩, hv, hw⟩⟩
  · exact absurd ⟨i, hg, hex⟩ (hm g)

/-- **C86**, the others: if a feature other than `dvdirection` has other tens for the turned picture, then the letter gets no word
from its own picture, and none at all if no other picture is near to it. -/
theorem C86_lost (S : StdSort) (imgs : List Image) (d : Datas) (ws : List Words) (hd : Datas.empty.loadAll imgs = .ok d)
    (hi : ∀ i ∈ imgs, Sized i) (hl : ws.length = imgs.length) (hne : [] ∉ ws) (hn : imgs.length + 63 < W32)
    (i r : Image) (hsi : Sized i) (hr : i.rotate90 = .ok r) (f : Feat) (hf : (f, Policy.img90) ∈ simpleStrats) (h1 : f ≠ .dvdirection)
    (x y : Nat) (hx : feature (f, .img) i r = .ok (.num x)) (hy : feature (f, .img90) i r = .ok (.num y)) (hxy : x / 10 ≠ y / 10) :
    ∃ t, (do let p ← order6 S d ws; build6 p.2 p.1) = .ok t ∧ ((∀ j ∈ imgs, j ≠ i → ¬ Near6 j i) →
        ∃ o, computeLetter6 S t i r = .ok o ∧ o.amb = [] ∧ o.r1 = [95] ∧ o.r2 = [95]) ∧
      ∀ o, computeLetter6 S t i r = .ok o → ∀ w ∈ o.amb, ∃ (g : Nat) (j : Image) (v : Words), imgs[g]? = some j ∧ j ≠ i ∧ Near6 j i ∧
        ws[g]? = some v ∧ w ∈ v := by
  have hnn : ¬ Near6 i i := by
    rintro ⟨ri, ra, e1, e2, h⟩
    rw [hr] at e1 e2
    cases e1; cases e2
    obtain ⟨x', y', e3, e4, e5⟩ := h (f, .img90) hf
    rw [hy] at e3; rw [hx] at e4
    cases e3; cases e4
    rw [if_neg (by intro e; cases e; exact h1 rfl)] at e5
    exact hxy e5.symm
  have hch : ∀ g, Chosen6 imgs ws i g → ∃ j, imgs[g]? = some j ∧ j ≠ i ∧ Near6 j i := by
    rintro g (⟨j, hj, he⟩ | ⟨_, ⟨j, hj, hnear, _⟩, _⟩)
    · have hnear := exact_near he
      exact ⟨j, hj, fun e => hnn (e ▸ hnear), hnear⟩
    · exact ⟨j, hj, fun e => hnn (e ▸ hnear), hnear⟩
  obtain ⟨t, ht, hrun⟩ := C85_letter S imgs d ws hd hi hl hne hn
  have hrun' := hrun i r hsi hr
  have hall : ∀ o, computeLetter6 S t i r = .ok o → ∀ w ∈ o.amb, ∃ (g : Nat) (j : Image) (v : Words), imgs[g]? = some j ∧ j ≠ i ∧
      Near6 j i ∧ ws[g]? = some v ∧ w ∈ v := by
    intro o ho w hw
    rcases hrun' with ⟨o1, e, h⟩ | ⟨e, _⟩
    · rw [ho, Res.ok.injEq] at e
      subst e
      obtain ⟨g, v, hc, hv, hwv⟩ := (h.words w).1 hw
      obtain ⟨j, a1, a2, a3⟩ := hch g hc
      exact ⟨g, j, v, a1, a2, a3, hv, hwv⟩
    · rw [ho] at e; cases e
  rcases hrun' with ⟨o, ho, h⟩ | ⟨ho, _, g, j, _, _, hj, hnear, _⟩
  · refine ⟨t, ht, fun hno => ⟨o, ?_⟩, hall⟩
    have h0 : o.amb = [] := by
      apply List.eq_nil_iff_forall_not_mem.2
      intro w hw
      obtain ⟨g, j, v, a1, a2, a3, _⟩ := hall o ho w hw
      exact hno j (List.mem_of_getElem? a1) a2 a3
    refine ⟨ho, h0, ?_, (h.unread h0).2⟩
    rcases h.first with ⟨g, j, v, a1, a2, _⟩ | ⟨_, a2⟩
    · exact absurd a2 (hno j (List.mem_of_getElem? a1) fun e => hnn (e ▸ a2))
    · exact a2
  · refine ⟨t, ht, fun hno => ?_, hall⟩
    exact absurd hnear (hno j (List.mem_of_getElem? hj) fun e => hnn (e ▸ hnear))

/-- **C86** is false: `extract_text6` finds nothing for a column although a column is all it was taught. -/
theorem C86_wrong : ¬ C86_statement := by
  intro h
  obtain ⟨d, hd, _⟩ := learnt_loadAll [stick] (by simpa using stick_sized)
  obtain ⟨t, ht, h1⟩ := h insertionSort [stick] d [[[108]]] hd (by simpa using stick_sized) rfl (by decide) (by decide)
  obtain ⟨o, ho, hw⟩ := h1 0 stick lying [[108]] rfl stick_rotated rfl
  obtain ⟨t', ht', _, h2⟩ := C86_lost insertionSort [stick] d [[[108]]] hd (by simpa using stick_sized) rfl (by decide) (by decide)
    stick lying stick_sized stick_rotated .dvgravity2 (by decide) (by decide) 100 50 (by decide +kernel) (by decide +kernel) (by decide)
  rw [ht, Res.ok.injEq] at ht'
  subst ht'
  obtain ⟨g, j, v, a1, a2, _⟩ := h2 o ho [108] (hw _ (by simp))
  exact a2 (by simpa using List.mem_of_getElem? a1)

/-- What `extract_text6` makes of the letter `a` when taught `imgs` with the words `ws`. -/
def taught6 (imgs : List Image) (ws : List Words) (a : Image) : Res Letter6 := do
  let d ← Datas.empty.loadAll imgs
  let p ← order6 insertionSort d ws
  let t ← build6 p.2 p.1
  let r ← a.rotate90
  computeLetter6 insertionSort t a r

/-- Taught a column and a block, it finds the block but not the column. -/
example : taught6 [stick, block] [[[108]], [[111], [48]]] block = .ok ⟨[111], [111], [[111], [48]], [[111], [48]]⟩ ∧
    taught6 [stick, block] [[[108]], [[111], [48]]] stick = .ok ⟨[95], [95], [], [[95]]⟩ := by decide +kernel

/-- Two blocks with different words give both. -/
example : taught6 [⟨⟨3, 3⟩, List.replicate 9 120⟩, stick, ⟨⟨4, 4⟩, List.replicate 16 120⟩] [[[111]], [[108]], [[48]]]
    ⟨⟨4, 4⟩, List.replicate 16 120⟩ = .ok ⟨[48], [48], [[48], [111]], [[48], [111]]⟩ := by decide +kernel

/-- A block with a hole. -/
def holed : Image := ⟨⟨3, 4⟩, [120, 120, 120, 120, 120, 120, 120, 45, 120, 120, 120, 120]⟩

/-- A learnt picture that does not match itself, but is near and has the bars. If there is another picture of its word, that one
must have the zones of the letter too: a bar at the top does not, so nothing is found; a column does. -/
example : taught6 [holed] [[[97]]] holed = .ok ⟨[97], [97], [[97]], [[97]]⟩ ∧
    taught6 [holed, ⟨⟨3, 3⟩, [120, 120, 120, 45, 45, 45, 45, 45, 45]⟩] [[[97]], [[97]]] holed = .ok ⟨[97], [95], [], [[95]]⟩ ∧
    taught6 [holed, stick] [[[97]], [[97], [98]]] holed = .ok ⟨[97], [97], [[97]], [[97]]⟩ := by decide +kernel

end Ppocr.Props

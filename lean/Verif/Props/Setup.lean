import Verif.Proofs.Recognise
import Verif.Props.ExtractText

/-! # Recognition with the tables of the program (C60, C61) -/

namespace Ppocr.Props
open Spec

/-! ### C60 -/

/-- Full statement of **C60**: with the tables computed from the pictures of the glyphs, every letter gets candidates. -/
def C60_statement (P : Type) [Dbl P] (S : StdSort) : Prop :=
  ∀ (imgs : List Image) (glyphs : List (List View)) (d : Datas) (a : Image), (∀ i ∈ imgs, Sized i) → Sized a →
    glyphs.length = imgs.length → [] ∉ glyphs → Datas.empty.loadAll imgs = .ok d →
    ∃ bw vs, checkTables glyphs d = .ok bw ∧ candidates (setupOf S glyphs d bw : Setup P) a = .ok vs

/-- The whole recognition of a letter: the tables computed, checked and used. -/
def recognise (imgs : List Image) (glyphs : List (List View)) (a : Image) : Res (List View) := do
  let d ← Datas.empty.loadAll imgs
  let bw ← checkTables glyphs d
  candidates (setupOf insertionSort glyphs d bw : Setup Frac) a

/-- A dash of 120 columns: a dot at column 1 and ink from `a` to `b`. -/
def dash (a b : Nat) : Image :=
  ⟨⟨120, 1⟩, (List.range 120).map fun j => if j == 1 || (decide (a ≤ j) && decide (j < b)) then 120 else 45⟩

/-- **C60** is false of pictures of any size: the zones of a wide letter are percentages that round to zero, and
the comparison divides by them. -/
theorem C60_wide_letter : recognise [dash 55 65, dash 55 65] [[⟨0, 0⟩], [⟨0, 1⟩]] (dash 54 65) = .ub := by decide +kernel

theorem dash_sized (a b : Nat) : Sized (dash a b) := by
  refine ⟨⟨?_, ?_, ?_, ?_⟩, ?_, ?_, ?_, ?_⟩ <;> simp [dash, W32]

/-- The two dashes clash: each has three zones on the border, and the corner in front of the dot is a thin one. -/
example : Clash (dash 55 65) (dash 54 65) := by
  have h1 := dash_sized 55 65
  have h2 := dash_sized 54 65
  obtain ⟨a, b, e1, e2, _, h⟩ := C24_pz_exact _ _ h1.wf h2.wf h1.w h1.h h2.w h2.h h1.area h2.area
  apply Classical.byContradiction
  intro hc
  obtain ⟨n, e, _⟩ := h hc
  have hu : (do let a ← propZoneLoad (dash 55 65); let b ← propZoneLoad (dash 54 65); pzRel.compute a b) = .ub := by decide +kernel
  rw [e1, Res.ok_bind, e2, Res.ok_bind, e] at hu
  cases hu

theorem C60_false : ¬ C60_statement Frac insertionSort := by
  intro h
  have hw := C60_wide_letter
  unfold recognise at hw
  obtain ⟨d, e, _⟩ := learnt_loadAll [dash 55 65, dash 55 65] (by
    intro i hi
    simp only [List.mem_cons, List.not_mem_nil, or_false, or_self] at hi
    rw [hi]; exact dash_sized _ _)
  obtain ⟨bw, vs, e1, e2⟩ := h [dash 55 65, dash 55 65] [[⟨0, 0⟩], [⟨0, 1⟩]] d (dash 54 65) (by
    intro i hi
    simp only [List.mem_cons, List.not_mem_nil, or_false, or_self] at hi
    rw [hi]; exact dash_sized _ _) (dash_sized _ _) rfl (by decide) e
  rw [e, Res.ok_bind, e1, Res.ok_bind, e2] at hw
  cases hw

section
variable {P : Type} [ScoreDbl P]

/-- **C60** for letters that can be compared with the glyphs, whatever the tables were read from; missing: the other letters,
for which it is false (`C60_exact`). The candidates are views of the glyph table. -/
theorem C60_total_partial (S : StdSort) (imgs : List Image) (glyphs : List (List View)) (d : Datas) (a : Image)
    (hi : ∀ i ∈ imgs, Sized i) (ha : Sized a) (hc : Comparable imgs glyphs a) (hn : glyphs.length = imgs.length) (he : [] ∉ glyphs)
    (h : Learnt imgs d) :
    ∃ bw vs, checkTables glyphs d = .ok bw ∧ candidates (setupOf S glyphs d bw : Setup P) a = .ok vs ∧
      ∀ v ∈ vs, ∃ l ∈ glyphs, v ∈ l := by
  obtain ⟨bw, hb, _⟩ := C33_by_words glyphs he
  obtain ⟨r, er, _⟩ := ha.rotate
  obtain ⟨o, e, ho⟩ := views_of_glyphs (comparable_ok (P := P) S glyphs bw h hi hn hb he ha er hc) []
  refine ⟨bw, o.views, ?_, ?_, ho⟩
  · unfold checkTables
    rw [if_neg (by rw [learnt_size h, hn]; simp), hb]
  · unfold candidates
    rw [er, Res.ok_bind, e]
    rfl

/-- **C31** for the tables of the program: perfect candidates, else those at least half as probable as the best. -/
theorem C31_program (S : StdSort) (imgs : List Image) (glyphs : List (List View)) (d : Datas) (a r : Image) (tmp : List (Nat × P))
    (hi : ∀ i ∈ imgs, Sized i) (ha : Sized a) (hc : Comparable imgs glyphs a) (hr : a.rotate90 = .ok r) (hn : glyphs.length = imgs.length)
    (he : [] ∉ glyphs) (h : Learnt imgs d) :
    ∃ (bw : List (List Nat)) (U T : List (Nat × P)) (o : Outcome P), checkTables glyphs d = .ok bw ∧
      computeImage (setupOf S glyphs d bw) tmp a r = .ok o ∧
      ((∃ p ∈ U, Dbl.le (Dbl.ofPct 100) p.2 = true) →
        Best (viewsIndexes S glyphs) U T ∧ o.views = viewsOf glyphs T (Dbl.ofPct 100) ∧ o.views ≠ []) ∧
      ((∀ p ∈ U, Dbl.le (Dbl.ofPct 100) p.2 = false) →
        Best (viewsIndexes S glyphs) (survivors (setupOf S glyphs d bw) a r U) T ∧
        (∀ best ∈ T.head?, o.views = viewsOf glyphs T (Dbl.mul best.2 (Dbl.ofPct 50))) ∧
        (o.views = [] ↔ survivors (setupOf S glyphs d bw) a r U = [])) ∧
      (U.map Prod.fst).Nodup ∧
      ∀ g p, (g, p) ∈ U ↔ p = score (valOf a r) (d.simple firstStrat) (otherStrats.map d.simple) g ∧
        ∀ s ∈ simpleStrats, ∃ x v, (d.get s)[g]? = some (.num x) ∧ feature s a r = .ok (.num v) ∧
          x ≤ v + s.1.k / 10 ∧ v ≤ x + s.1.k / 10 := by
  obtain ⟨bw, hb, _⟩ := C33_by_words glyphs he
  have hl := ha.rotated hr
  have ok := comparable_ok (P := P) S glyphs bw h hi hn hb he ha hr hc
  obtain ⟨U, T, o, h1, h2, h3, h4⟩ := C31_result _ _ _ _ _ ok tmp rfl he
  obtain ⟨U', u1, u2, u3, _⟩ := universe_iff (P := P) S glyphs bw h hi hn ha hr
  have : U = U' := Res.ok.inj (h1.symm.trans u1)
  subst this
  refine ⟨bw, U, T, o, ?_, h2, h3 (by simp [setupOf, complexStrats]), fun hp => h4 (.inr hp), u2, u3⟩
  unfold checkTables
  rw [if_neg (by rw [learnt_size h, hn]; simp), hb]

/-- **C60**, exact condition: a letter is recognised unless it is blocked; then the comparison divides by zero. -/
theorem C60_exact (S : StdSort) (imgs : List Image) (glyphs : List (List View)) (d : Datas) (a : Image)
    (hi : ∀ i ∈ imgs, Sized i) (ha : Sized a) (hn : glyphs.length = imgs.length) (he : [] ∉ glyphs) (h : Learnt imgs d) :
    ∃ bw, checkTables glyphs d = .ok bw ∧
      (Blocked imgs glyphs a → candidates (setupOf S glyphs d bw : Setup P) a = .ub) ∧
      (¬ Blocked imgs glyphs a → ∃ vs, candidates (setupOf S glyphs d bw : Setup P) a = .ok vs ∧ ∀ v ∈ vs, ∃ l ∈ glyphs, v ∈ l) := by
  obtain ⟨bw, hb, _⟩ := C33_by_words glyphs he
  obtain ⟨r, er, _⟩ := ha.rotate
  refine ⟨bw, ?_, ?_, ?_⟩
  · unfold checkTables
    rw [if_neg (by rw [learnt_size h, hn]; simp), hb]
  · intro hc
    unfold candidates
    rw [er, Res.ok_bind, blocked_ub (P := P) S glyphs bw h hi hn hb he ha er hc]
    rfl
  · intro hc
    obtain ⟨bw', vs, e1, e2, e3⟩ := C60_total_partial (P := P) S imgs glyphs d a hi ha hc hn he h
    unfold checkTables at e1
    rw [if_neg (by rw [learnt_size h, hn]; simp), hb] at e1
    cases e1
    exact ⟨vs, e2, e3⟩

/-- The same with the tables computed from the pictures. -/
theorem C60_computed_partial (S : StdSort) (imgs : List Image) (glyphs : List (List View)) (a : Image)
    (hi : ∀ i ∈ imgs, Sized i) (ha : Sized a) (hc : Comparable imgs glyphs a) (hn : glyphs.length = imgs.length) (he : [] ∉ glyphs) :
    ∃ d bw vs, Datas.empty.loadAll imgs = .ok d ∧ checkTables glyphs d = .ok bw ∧
      candidates (setupOf S glyphs d bw : Setup P) a = .ok vs ∧ ∀ v ∈ vs, ∃ l ∈ glyphs, v ∈ l := by
  obtain ⟨d, e, h⟩ := learnt_loadAll imgs hi
  obtain ⟨bw, vs, h1, h2, h3⟩ := C60_total_partial (P := P) S imgs glyphs d a hi ha hc hn he h
  exact ⟨d, bw, vs, e, h1, h2, h3⟩

end

theorem recognise_ub {imgs : List Image} {glyphs : List (List View)} {a : Image} (hi : ∀ i ∈ imgs, Sized i) (ha : Sized a)
    (hn : glyphs.length = imgs.length) (he : [] ∉ glyphs) : recognise imgs glyphs a = .ub ↔ Blocked imgs glyphs a := by
  obtain ⟨d, e, h⟩ := learnt_loadAll imgs hi
  obtain ⟨bw, e1, e2, e3⟩ := C60_exact (P := Frac) insertionSort imgs glyphs d a hi ha hn he h
  unfold recognise
  rw [e, Res.ok_bind, e1, Res.ok_bind]
  refine ⟨fun hu => Classical.byContradiction fun hb => ?_, e2⟩
  obtain ⟨vs, e4, _⟩ := e3 hb
  rw [hu] at e4
  cases e4

/-- The same dash with the dot at column `c`. -/
def dashDot (c : Nat) : Image := ⟨⟨120, 1⟩, (List.range 120).map fun j => if j == c || (decide (55 ≤ j) && decide (j < 65)) then 120 else 45⟩

theorem dashDot_sized (c : Nat) : Sized (dashDot c) := by
  refine ⟨⟨?_, ?_, ?_, ?_⟩, ?_, ?_, ?_, ?_⟩ <;> simp [dashDot, W32]

/-- With four pictures of one word the search begins with the last one, or with the first one for the last: no clash is reached.
Without the last picture it begins with one that clashes. -/
example : ¬ Blocked [dashDot 5, dashDot 1, dashDot 1, dashDot 7] [[⟨0, 0⟩], [⟨0, 1⟩], [⟨0, 2⟩], [⟨0, 3⟩]] (dash 54 65) ∧
    Blocked [dashDot 5, dashDot 1, dashDot 1] [[⟨0, 0⟩], [⟨0, 1⟩], [⟨0, 2⟩]] (dash 54 65) ∧
    others [[⟨0, 0⟩], [⟨0, 1⟩], [⟨0, 2⟩], [⟨0, 3⟩]] 1 = [3, 0, 2] := by
  refine ⟨?_, ?_, by decide⟩
  · rw [← recognise_ub (by simp [dashDot_sized]) (dash_sized _ _) rfl (by decide)]
    decide +kernel
  · rw [← recognise_ub (by simp [dashDot_sized]) (dash_sized _ _) rfl (by decide)]
    decide +kernel

/-- Tables for another number of glyphs are refused. -/
theorem C60_refused (imgs : List Image) (glyphs : List (List View)) (d : Datas) (h : Learnt imgs d)
    (hn : glyphs.length ≠ imgs.length) : checkTables glyphs d = .throw := by
  unfold checkTables
  rw [if_pos (by rwa [learnt_size h])]

/-- A glyph without any view: the table of words reads past an empty list. -/
theorem C60_no_view (imgs : List Image) (glyphs : List (List View)) (d : Datas) (h : Learnt imgs d)
    (hn : glyphs.length = imgs.length) (he : [] ∈ glyphs) : checkTables glyphs d = .ub := by
  unfold checkTables
  rw [if_neg (by rw [learnt_size h, hn]; simp), C33_empty_glyph glyphs he]

/-! ### C61 -/

/-- Full statement of **C61**: a letter that is the picture of glyph `g` is recognised as a word of that glyph, among others. -/
def C61_statement (P : Type) [Dbl P] (S : StdSort) : Prop :=
  ∀ (imgs : List Image) (glyphs : List (List View)) (d : Datas) (a : Image) (g : Nat), (∀ i ∈ imgs, Sized i) →
    imgs[g]? = some a → glyphs.length = imgs.length → [] ∉ glyphs → Datas.empty.loadAll imgs = .ok d →
    ∃ bw vs, checkTables glyphs d = .ok bw ∧ candidates (setupOf S glyphs d bw : Setup P) a = .ok vs ∧
      ∀ v ∈ glyphs.getD g [], v.word ∈ vs.map View.word

def slash : Image := ⟨⟨2, 2⟩, [45, 120, 120, 45]⟩
def backslash : Image := ⟨⟨2, 2⟩, [120, 45, 45, 120]⟩
def block : Image := ⟨⟨2, 2⟩, [120, 120, 120, 120]⟩

/-- **C61** is false: no simple strategy tells the two diagonals apart, their view ids are wrongly equal (C34), and the second
is read as the first. -/
theorem C61_misread : recognise [slash, backslash, block] [[⟨2, 0⟩], [⟨1, 0⟩], [⟨1, 1⟩]] backslash = .ok [⟨2, 0⟩] := by
  decide +kernel

theorem small_letters : ∀ i ∈ [slash, backslash, block], Sized i := by
  intro i hi
  simp only [List.mem_cons, List.not_mem_nil, or_false] at hi
  rcases hi with rfl | rfl | rfl <;> exact sized_small ⟨rfl, by decide, by decide, by decide⟩ (by decide) (by decide) (by decide)

theorem C61_false : ¬ C61_statement Frac insertionSort := by
  intro h
  have hw := C61_misread
  unfold recognise at hw
  obtain ⟨d, e, _⟩ := learnt_loadAll [slash, backslash, block] fun i hi => (small_letters i hi)
  obtain ⟨bw, vs, e1, e2, e3⟩ := h [slash, backslash, block] [[⟨2, 0⟩], [⟨1, 0⟩], [⟨1, 1⟩]] d backslash 1 small_letters rfl rfl
    (by decide) e
  rw [e, Res.ok_bind, e1, Res.ok_bind, e2] at hw
  cases hw
  exact absurd (e3 ⟨1, 0⟩ (by decide)) (by decide)

section
variable {P : Type} [ScoreDbl P] (S : StdSort) (imgs : List Image) (glyphs : List (List View)) (d : Datas) (a : Image) (g : Nat)

/-- **C61** up to what the simple strategies can tell: a letter alike to a learnt glyph gets candidates, and all of them are
views of glyphs alike to it; missing: the glyph itself may be absent. -/
theorem C61_alike_partial (hi : ∀ i ∈ imgs, Sized i) (ha : Sized a) (hn : glyphs.length = imgs.length) (he : [] ∉ glyphs)
    (h : Learnt imgs d) (hg : AlikeGlyph imgs a g) :
    ∃ bw vs, checkTables glyphs d = .ok bw ∧ candidates (setupOf S glyphs d bw : Setup P) a = .ok vs ∧ vs ≠ [] ∧
      ∀ v ∈ vs, ∃ k l, AlikeGlyph imgs a k ∧ glyphs[k]? = some l ∧ v ∈ l := by
  obtain ⟨bw, hb, _⟩ := C33_by_words glyphs he
  obtain ⟨G, e1, e2, _, e4⟩ := candidates_alike (P := P) S glyphs bw h hi hn hb he ha hg
  have hin : ∀ k, AlikeGlyph imgs a k → ∃ l ∈ glyphs, glyphs[k]? = some l := by
    rintro k ⟨i, hk, _⟩
    have : k < glyphs.length := by rw [hn]; exact (List.getElem?_eq_some_iff.1 hk).1
    exact ⟨_, List.getElem_mem this, List.getElem?_eq_getElem this⟩
  refine ⟨bw, _, ?_, e1, ?_, ?_⟩
  · unfold checkTables
    rw [if_neg (by rw [learnt_size h, hn]; simp), hb]
  · intro hnil
    obtain ⟨k, hk, _⟩ := e4 g hg
    have := List.flatMap_eq_nil_iff.1 hnil k hk
    obtain ⟨l, hl, el⟩ := hin k (e2 k hk)
    rw [List.getD_eq_getElem?_getD, el, Option.getD_some] at this
    exact he (this ▸ hl)
  · intro v hv
    obtain ⟨k, hk, hv⟩ := List.mem_flatMap.1 hv
    obtain ⟨l, _, el⟩ := hin k (e2 k hk)
    rw [List.getD_eq_getElem?_getD, el, Option.getD_some] at hv
    exact ⟨k, l, e2 k hk, el, hv⟩

/-- **C61** for a glyph that the simple strategies tell from every other: exactly its views. -/
theorem C61_only_partial (hi : ∀ i ∈ imgs, Sized i) (hg : imgs[g]? = some a) (hn : glyphs.length = imgs.length)
    (he : [] ∉ glyphs) (h : Learnt imgs d) (honly : ∀ k, AlikeGlyph imgs a k → k = g) :
    ∃ bw vs, checkTables glyphs d = .ok bw ∧ candidates (setupOf S glyphs d bw : Setup P) a = .ok vs ∧
      glyphs[g]? = some vs := by
  obtain ⟨bw, hb, _⟩ := C33_by_words glyphs he
  have ha := hi a (List.mem_of_getElem? hg)
  obtain ⟨G, e1, e2, e3, e4⟩ := candidates_alike (P := P) S glyphs bw h hi hn hb he ha ⟨a, hg, alike_refl ha⟩
  have hG : G = [g] := by
    obtain ⟨k, hk, _⟩ := e4 g ⟨a, hg, alike_refl ha⟩
    cases G with
    | nil => cases hk
    | cons x xs =>
      have hx := honly x (e2 x List.mem_cons_self)
      cases xs with
      | nil => rw [hx]
      | cons y ys =>
        have hy := honly y (e2 y (List.mem_cons_of_mem _ List.mem_cons_self))
        rw [List.pairwise_cons] at e3
        exact absurd (by rw [hx, hy]) (e3.1 y List.mem_cons_self)
  have hlt : g < glyphs.length := by rw [hn]; exact (List.getElem?_eq_some_iff.1 hg).1
  refine ⟨bw, _, ?_, e1, ?_⟩
  · unfold checkTables
    rw [if_neg (by rw [learnt_size h, hn]; simp), hb]
  · rw [hG, List.flatMap_cons, List.flatMap_nil, List.append_nil, List.getD_eq_getElem?_getD,
      List.getElem?_eq_getElem hlt, Option.getD_some]

/-- **C61** when the glyphs alike to `g` have its words: exactly these words. -/
theorem C61_words_partial (hi : ∀ i ∈ imgs, Sized i) (hg : imgs[g]? = some a) (hn : glyphs.length = imgs.length)
    (he : [] ∉ glyphs) (h : Learnt imgs d) (hall : ∀ k, AlikeGlyph imgs a k → words glyphs k = words glyphs g) :
    ∃ bw vs, checkTables glyphs d = .ok bw ∧ candidates (setupOf S glyphs d bw : Setup P) a = .ok vs ∧
      ∀ w, w ∈ vs.map View.word ↔ ∃ ws, words glyphs g = some ws ∧ w ∈ ws := by
  obtain ⟨bw, hb, _⟩ := C33_by_words glyphs he
  have ha := hi a (List.mem_of_getElem? hg)
  obtain ⟨G, e1, e2, _, e4⟩ := candidates_alike (P := P) S glyphs bw h hi hn hb he ha ⟨a, hg, alike_refl ha⟩
  refine ⟨bw, _, ?_, e1, ?_⟩
  · unfold checkTables
    rw [if_neg (by rw [learnt_size h, hn]; simp), hb]
  · have hlt : g < glyphs.length := by rw [hn]; exact (List.getElem?_eq_some_iff.1 hg).1
    have hw : ∀ k ∈ G, (glyphs.getD k []).map View.word = (glyphs.getD g []).map View.word := by
      intro k hk
      have := hall k (e2 k hk)
      unfold words at this
      have hk' : k < glyphs.length := by
        obtain ⟨i, hk, _⟩ := e2 k hk
        rw [hn]; exact (List.getElem?_eq_some_iff.1 hk).1
      rw [List.getElem?_eq_getElem hk', List.getElem?_eq_getElem hlt, Option.map_some, Option.map_some] at this
      rw [List.getD_eq_getElem?_getD, List.getD_eq_getElem?_getD, List.getElem?_eq_getElem hk', List.getElem?_eq_getElem hlt]
      exact Option.some.inj this
    have hgw : words glyphs g = some ((glyphs.getD g []).map View.word) := by
      unfold words
      rw [List.getD_eq_getElem?_getD, List.getElem?_eq_getElem hlt]
      rfl
    intro w
    rw [hgw]
    constructor
    · intro hw'
      obtain ⟨v, hv, rfl⟩ := List.mem_map.1 hw'
      obtain ⟨k, hk, hv⟩ := List.mem_flatMap.1 hv
      exact ⟨_, rfl, hw k hk ▸ List.mem_map_of_mem hv⟩
    · rintro ⟨ws, e, hw'⟩
      cases e
      obtain ⟨k, hk, _⟩ := e4 g ⟨a, hg, alike_refl ha⟩
      rw [← hw k hk] at hw'
      obtain ⟨v, hv, rfl⟩ := List.mem_map.1 hw'
      exact List.mem_map_of_mem (List.mem_flatMap.2 ⟨k, hk, hv⟩)

/-- **C61** for a glyph table in the order of the words (the condition of `C34_ids_partial`): the views of some glyph with the
words of `g` are among the candidates. -/
theorem C61_ordered_partial (hi : ∀ i ∈ imgs, Sized i) (hg : imgs[g]? = some a) (hn : glyphs.length = imgs.length)
    (he : [] ∉ glyphs) (h : Learnt imgs d) (ho : InWordOrder glyphs) :
    ∃ bw vs, checkTables glyphs d = .ok bw ∧ candidates (setupOf S glyphs d bw : Setup P) a = .ok vs ∧
      ∃ k l, words glyphs k = words glyphs g ∧ AlikeGlyph imgs a k ∧ glyphs[k]? = some l ∧ ∀ v ∈ l, v ∈ vs := by
  obtain ⟨bw, hb, _⟩ := C33_by_words glyphs he
  have ha := hi a (List.mem_of_getElem? hg)
  obtain ⟨G, e1, e2, _, e4⟩ := candidates_alike (P := P) S glyphs bw h hi hn hb he ha ⟨a, hg, alike_refl ha⟩
  refine ⟨bw, _, ?_, e1, ?_⟩
  · unfold checkTables
    rw [if_neg (by rw [learnt_size h, hn]; simp), hb]
  · have hlt : g < glyphs.length := by rw [hn]; exact (List.getElem?_eq_some_iff.1 hg).1
    obtain ⟨k, hk, hid⟩ := e4 g ⟨a, hg, alike_refl ha⟩
    have hk' : k < glyphs.length := by
      obtain ⟨i, hk, _⟩ := e2 k hk
      rw [hn]; exact (List.getElem?_eq_some_iff.1 hk).1
    obtain ⟨hlen, hst⟩ := C34_ids_partial S glyphs ho
    refine ⟨k, glyphs[k], (hst k g hk' hlt).1 ?_, e2 k hk, List.getElem?_eq_getElem hk', ?_⟩
    · rw [List.getD_eq_getElem?_getD, List.getD_eq_getElem?_getD, List.getElem?_eq_getElem (by omega),
        List.getElem?_eq_getElem (by omega), Option.getD_some, Option.getD_some] at hid
      rw [List.getElem?_eq_getElem (by omega), List.getElem?_eq_getElem (by omega), hid]
    · intro v hv
      refine List.mem_flatMap.2 ⟨k, hk, ?_⟩
      rw [List.getD_eq_getElem?_getD, List.getElem?_eq_getElem hk']
      exact hv

end

/-- The block is told from the diagonals; with the table in order both diagonals are candidates of each. -/
example : recognise [slash, backslash, block] [[⟨1, 0⟩], [⟨2, 0⟩], [⟨3, 1⟩]] block = .ok [⟨3, 1⟩] ∧
    recognise [slash, backslash, block] [[⟨1, 0⟩], [⟨2, 0⟩], [⟨3, 1⟩]] backslash = .ok [⟨1, 0⟩, ⟨2, 0⟩] ∧
    recognise [slash, backslash, block] [[⟨1, 0⟩], [⟨2, 0⟩]] slash = .throw := by decide +kernel

end Ppocr.Props

import Verif.Proofs.Ocr2Tables

/-! # C25, C28–C34: recognition of one letter -/

namespace Ppocr.Props
open Ppocr Spec

/-! ### C25 -/

open Classical in
/-- **C25**: for an interval feature, exactly the candidates at distance at most `d` are kept, in order. -/
theorem C25_keeps_near {β : Type} (k : Nat) (tab : List Nat) (v d : Nat) (ps : List (Nat × β))
    (hin : ∀ p ∈ ps, p.1 < tab.length) (hv : v + d < W32) :
    reduceWithDistance (intervalRel k) tab v d ps =
      .ok (ps.filter fun p => decide (Near tab v d p.1)) :=
  reduceWithDistance_ok k tab v d ps hin hv

example : reduceWithDistance (intervalRel 100) [38, 45, 70, 30, 51] 40 10 [(4, ()), (0, ()), (2, ()), (3, ()), (1, ())] =
    .ok [(0, ()), (3, ()), (1, ())] := by decide

/-- A candidate out of the table is read out of bounds. -/
theorem C25_out_of_table {β : Type} (k : Nat) (tab : List Nat) (v d : Nat) (p : Nat × β) (ps : List (Nat × β))
    (h : tab.length ≤ p.1) : reduceWithDistance (intervalRel k) tab v d (p :: ps) = .ub := by
  unfold reduceWithDistance removeIf
  rw [rd_of_ge h]
  rfl

/-- The sum wraps: at the end of the unsigned range an equal feature is removed. -/
example : reduceWithDistance (intervalRel 100) [4294967295] 4294967295 1 [(0, ())] = .ok [] := by decide

/-- The other relationships call "in distance" what is *near*: with them the same loop removes the equal
features.  (Only interval features are given to it.) -/
theorem C25_other_relationships_removed {β : Type} (tab : List Nat) (v d : Nat) (ps : List (Nat × β))
    (hin : ∀ p ∈ ps, p.1 < tab.length) :
    reduceWithDistance equalRel tab v d ps = .ok (ps.filter fun p => decide (tab[p.1]? ≠ some v)) := by
  unfold reduceWithDistance
  rw [removeIf_ok _ (fun p => decide (tab[p.1]? = some v))]
  · congr 1
    apply List.filter_congr
    intro p _
    simp
  · intro p hp
    have h1 := hin p hp
    rw [rd_of_lt h1, Res.ok_bind, List.getElem?_eq_getElem h1]
    simp [equalRel]

example : reduceWithDistance equalRel [3, 4] 4 1 [(0, ()), (1, ())] = .ok [(0, ())] := by decide

/-! ### C28 -/

/-- **C28**: the range query yields each index at distance at most `d` exactly once, and no other, whatever
`std::sort` did with the ties. -/
theorem C28_get_range (S : StdSort) (data : List Nat) (x d : Nat) (hx : x + d < W32) :
    ∃ r, getRange data (indexesOrdered S data) x d = .ok r ∧ r.Nodup ∧
      ∀ g, g ∈ r ↔ ∃ v, data[g]? = some v ∧ x ≤ v + d ∧ v ≤ x + d := by
  obtain ⟨r, h1, h2, h3⟩ := getRange_ok S data x d hx
  refine ⟨r, h1, h2, ?_⟩
  intro g
  rw [h3]
  constructor
  · rintro ⟨t, a, b, c⟩; exact ⟨t, a, c, b⟩
  · rintro ⟨t, a, b, c⟩; exact ⟨t, a, c, b⟩

example : getRange [38, 45, 70, 30, 51, 30, 29] (indexesOrdered insertionSort [38, 45, 70, 30, 51, 30, 29]) 40 10 =
    .ok [3, 5, 0, 1] := by decide
example : getRange [3, 0, 14] (indexesOrdered insertionSort [3, 0, 14]) 4 10 = .ok [1, 0, 2] := by decide

/-- The upper bound wraps: nothing is found. -/
example : getRange [4294967295] (indexesOrdered insertionSort [4294967295]) 4294967295 1 = .ok [] := by decide

/-! ### C30 -/

section
variable {P : Type} [Dbl P]

/-- **C30**: the simple universe is the set of the glyphs near the image for every simple strategy, each
once, with the product of its similarities. -/
theorem C30_simple_universe (S : StdSort) (cap n : Nat) (first : Simple) (ss : List Simple)
    (img img90 : Image) (val : Simple → Nat)
    (hload : ∀ s ∈ first :: ss, s.load img img90 = .ok (val s))
    (ok : ∀ s ∈ first :: ss, SimpleOk val n s) (hcap : n ≤ cap) :
    ∃ U : List (Nat × P),
      computeSimpleUniverse cap first ss (indexesOrdered S first.tab) img img90 = .ok U ∧
      (U.map Prod.fst).Nodup ∧
      ∀ g p, (g, p) ∈ U ↔ p = score val first ss g ∧
        ∀ s ∈ first :: ss, ∃ t, s.tab[g]? = some t ∧ t ≤ val s + s.k / 10 ∧ val s ≤ t + s.k / 10 := by
  obtain ⟨r, e, hn, hm⟩ := computeSimpleUniverse_ok (P := P) S cap n first ss img img90 val hload ok hcap
  refine ⟨_, e, ?_, ?_⟩
  · rw [List.map_map]
    have : (Prod.fst ∘ fun g => (g, (score val first ss g : P))) = id := rfl
    rw [this, List.map_id]
    exact hn
  · intro g p
    simp only [List.mem_map, Prod.mk.injEq]
    constructor
    · rintro ⟨g', hg, rfl, rfl⟩
      exact ⟨rfl, (hm g').1 hg⟩
    · rintro ⟨rfl, h⟩
      exact ⟨g, (hm g).2 h, rfl, rfl⟩

end

/-- Two strategies, four glyphs: glyph 3 is dropped by the second strategy, glyph 2 by the first. -/
example : computeSimpleUniverse (P := Frac) 4 ⟨100, fun _ _ => .ok 40, [38, 45, 70, 40]⟩
      [⟨200, fun _ _ => .ok 100, [110, 100, 100, 140]⟩] (indexesOrdered insertionSort [38, 45, 70, 40])
      ⟨⟨0, 0⟩, []⟩ ⟨⟨0, 0⟩, []⟩ =
    .ok [(0, ⟨98 * 95, 2⟩), (1, ⟨95 * 100, 2⟩)] := by decide

/-! ### C32 -/

/-- **C32**: a candidate is kept exactly when its entry in the word table is empty or names a glyph that
satisfies the predicate. -/
theorem C32_by_word {β : Type} (byWords : List (List Nat)) (pred : Nat → Res Bool) (q : Nat → Bool)
    (ps : List (Nat × β)) (hin : ∀ p ∈ ps, p.1 < byWords.length)
    (hb : ∀ l ∈ byWords, ∀ j ∈ l, j < byWords.length) (h : ∀ i, i < byWords.length → pred i = .ok (q i)) :
    ∃ r, reduceByWord byWords pred ps = .ok r ∧ r.Sublist ps ∧
      ∀ p ∈ ps, p ∈ r ↔ byWords[p.1]? = some [] ∨ ∃ l, byWords[p.1]? = some l ∧ ∃ j ∈ l, q j = true := by
  refine ⟨_, reduceByWord_ok byWords pred q _ ps hin hb h, List.filter_sublist, ?_⟩
  intro p hp
  have h1 := hin p hp
  rw [List.mem_filter, List.getD_eq_getElem?_getD, List.getElem?_eq_getElem h1]
  simp [hp]

example : reduceByWord [[1], [0], [], [4], [3]] (fun i => .ok (i == 1 || i == 4)) [(0, ()), (1, ()), (2, ()), (3, ()), (4, ())] =
    .ok [(0, ()), (2, ()), (3, ())] := by decide

/-! ### C33 -/

/-- **C33**: when every glyph has a view, entry `g` holds exactly the other glyphs with the same first word,
each once, the last glyph of the word in front and the others in the order of the table. -/
theorem C33_by_words (glyphs : List (List View)) (hv : [] ∉ glyphs) :
    ∃ t, dataIndexesByWords glyphs = .ok t ∧ t.length = glyphs.length ∧
      (∀ g, g < glyphs.length → ∃ r, t[g]? = some r ∧ r.Nodup ∧
        ∀ j, j ∈ r ↔ j < glyphs.length ∧ j ≠ g ∧ firstWord glyphs j = firstWord glyphs g) ∧
      ∀ g, g < glyphs.length → t[g]? = some (others glyphs g) := by
  have hw : ∀ j vs, glyphs[j]? = some vs → ∃ v, vs.head? = some v ∧ v.word = (firstWord glyphs j).getD 0 := by
    intro j vs hj
    cases vs with
    | nil => exact absurd (List.mem_of_getElem? hj) hv
    | cons v vs =>
      refine ⟨v, rfl, ?_⟩
      unfold firstWord
      rw [hj]
      rfl
  have hsome : ∀ j, j < glyphs.length → ∃ w, firstWord glyphs j = some w := by
    intro j hj
    obtain ⟨v, h1, _⟩ := hw j _ (List.getElem?_eq_getElem hj)
    refine ⟨v.word, ?_⟩
    unfold firstWord
    rw [List.getElem?_eq_getElem hj, Option.bind_some, h1]
    rfl
  obtain ⟨t, h1, h2, h3⟩ := dataIndexesByWords_ok glyphs (fun j => (firstWord glyphs j).getD 0) hw
  refine ⟨t, h1, h2, ?_, ?_⟩
  rotate_left
  · intro g hg
    obtain ⟨r, h4, _, h6⟩ := h3 g hg
    rw [h4, h6]
    unfold others
    congr 2
    apply List.filter_congr
    intro j hj
    obtain ⟨wj, hwj⟩ := hsome j (List.mem_range.1 hj)
    obtain ⟨wg, hwg⟩ := hsome g hg
    rw [hwj, hwg]
    simp
  intro g hg
  obtain ⟨r, h4, h5, _⟩ := h3 g hg
  have hn : (g :: r).Nodup := h5.nodup_iff.2 (List.nodup_range.sublist List.filter_sublist)
  rw [List.nodup_cons] at hn
  refine ⟨r, h4, hn.2, ?_⟩
  intro j
  have h6 := h5.mem_iff (a := j)
  rw [List.mem_cons, List.mem_filter, List.mem_range, decide_eq_true_eq] at h6
  obtain ⟨wg, hwg⟩ := hsome g hg
  constructor
  · intro hj
    obtain ⟨h7, h8⟩ := h6.1 (Or.inr hj)
    obtain ⟨wj, hwj⟩ := hsome j h7
    refine ⟨h7, fun e => hn.1 (e ▸ hj), ?_⟩
    rw [hwj, hwg] at h8 ⊢
    exact congrArg some h8
  · rintro ⟨h7, h8, h9⟩
    rcases h6.2 ⟨h7, by rw [h9]⟩ with e | hj
    · exact absurd e h8
    · exact hj

/-- A glyph without views makes the constructor read the front of an empty list. -/
theorem C33_empty_glyph (glyphs : List (List View)) (h : [] ∈ glyphs) : dataIndexesByWords glyphs = .ub := by
  unfold dataIndexesByWords
  rw [collectWords_empty glyphs 0 [] h]
  rfl

example : dataIndexesByWords [[⟨7, 0⟩], [⟨3, 0⟩], [⟨7, 1⟩, ⟨3, 1⟩], [⟨3, 2⟩], [⟨5, 0⟩], [⟨3, 4⟩]] =
    .ok [[2], [5, 3], [0], [5, 1], [], [1, 3]] := by decide

/-! ### C34 -/

/-- The words of the views of glyph `g`. -/
def words (glyphs : List (List View)) (g : Nat) : Option (List Nat) := glyphs[g]?.map (List.map View.word)

/-- **C34** is false: whatever `std::sort` does, glyphs 0 and 1 with different words get the same id and
glyphs 1 and 2 with the same word get different ids.  The ids are stored at the position in the sorted order
instead of the position of the glyph. -/
theorem C34_wrong_ids (S : StdSort) :
    ∃ glyphs : List (List View), words glyphs 0 ≠ words glyphs 1 ∧ words glyphs 1 = words glyphs 2 ∧
      (viewsIndexes S glyphs)[0]? = (viewsIndexes S glyphs)[1]? ∧
      (viewsIndexes S glyphs)[1]? ≠ (viewsIndexes S glyphs)[2]? := by
  refine ⟨[[⟨2, 0⟩], [⟨1, 0⟩], [⟨1, 1⟩]], by decide, by decide, ?_⟩
  obtain ⟨σ, hp, hs, hl, h1, h2⟩ := viewsIndexes_sorted S [[⟨2, 0⟩], [⟨1, 0⟩], [⟨1, 1⟩]]
  have hσ : σ = [1, 2, 0] ∨ σ = [2, 1, 0] := by
    have hl := hp.length_eq
    match σ, hl with
    | [a, b, c], _ =>
      have m0 := hp.mem_iff (a := 0)
      have m1 := hp.mem_iff (a := 1)
      have m2 := hp.mem_iff (a := 2)
      have hn : [a, b, c].Nodup := hp.nodup_iff.2 List.nodup_range
      have hlt : ∀ x ∈ [a, b, c], x < 3 := fun x hx => List.mem_range.1 (hp.mem_iff.1 hx)
      have ha := hlt a (by simp)
      have hb := hlt b (by simp)
      have hc := hlt c (by simp)
      clear m0 m1 m2 h1 h2
      revert hs hn ha hb hc
      clear hlt hp hl
      have : ∀ a b c : Fin 3, List.Pairwise (fun i j => ltViews
          ([[⟨2, 0⟩], [⟨1, 0⟩], [⟨1, 1⟩]].getD j []) ([[⟨2, 0⟩], [⟨1, 0⟩], [⟨1, 1⟩]].getD i []) = false)
          [a.val, b.val, c.val] → [a.val, b.val, c.val].Nodup →
          [a.val, b.val, c.val] = [1, 2, 0] ∨ [a.val, b.val, c.val] = [2, 1, 0] := by decide
      intro hs hn ha hb hc
      exact this ⟨a, ha⟩ ⟨b, hb⟩ ⟨c, hc⟩ hs hn
  have key : ∀ (k r : Nat), σ[k]? = some r → ∃ r', (viewsIndexes S [[⟨2, 0⟩], [⟨1, 0⟩], [⟨1, 1⟩]])[k]? = some r' ∧
    wordsOf ([[⟨2, 0⟩], [⟨1, 0⟩], [⟨1, 1⟩]].getD r' []) = wordsOf ([[⟨2, 0⟩], [⟨1, 0⟩], [⟨1, 1⟩]].getD r []) := h1
  have k0 : ∃ r', (viewsIndexes S [[⟨2, 0⟩], [⟨1, 0⟩], [⟨1, 1⟩]])[0]? = some r' ∧
      wordsOf ([[⟨2, 0⟩], [⟨1, 0⟩], [⟨1, 1⟩]].getD r' []) = [1] := by
    rcases hσ with e | e <;> subst e
    · exact h1 0 1 rfl
    · exact h1 0 2 rfl
  have k1 : ∃ r', (viewsIndexes S [[⟨2, 0⟩], [⟨1, 0⟩], [⟨1, 1⟩]])[1]? = some r' ∧
      wordsOf ([[⟨2, 0⟩], [⟨1, 0⟩], [⟨1, 1⟩]].getD r' []) = [1] := by
    rcases hσ with e | e <;> subst e
    · exact h1 1 2 rfl
    · exact h1 1 1 rfl
  have k2 : ∃ r', (viewsIndexes S [[⟨2, 0⟩], [⟨1, 0⟩], [⟨1, 1⟩]])[2]? = some r' ∧
      wordsOf ([[⟨2, 0⟩], [⟨1, 0⟩], [⟨1, 1⟩]].getD r' []) = [2] := by
    rcases hσ with e | e <;> subst e
    · exact h1 2 0 rfl
    · exact h1 2 0 rfl
  obtain ⟨r0, a0, b0⟩ := k0
  obtain ⟨r1, a1, b1⟩ := k1
  obtain ⟨r2, a2, b2⟩ := k2
  have e01 := h2 0 r0 r1 a0 a1 (b0.trans b1.symm)
  refine ⟨by rw [a0, a1, e01], ?_⟩
  rw [a1, a2]
  intro e
  cases e
  rw [b1] at b2
  exact absurd b2 (by decide)

example : viewsIndexes insertionSort [[⟨2, 0⟩], [⟨1, 0⟩], [⟨1, 1⟩]] = [1, 1, 0] := by decide

/-- Full statement of **C34**: the same id exactly for the same words. -/
def C34_statement (S : StdSort) (glyphs : List (List View)) : Prop :=
  ∀ i j, i < glyphs.length → j < glyphs.length →
    ((viewsIndexes S glyphs)[i]? = (viewsIndexes S glyphs)[j]? ↔ words glyphs i = words glyphs j)

/-- A glyph table in the order of the words: shorter lists first, then lexicographically. -/
def InWordOrder (glyphs : List (List View)) : Prop :=
  glyphs.Pairwise fun a b => a.length < b.length ∨
    a.length = b.length ∧ ¬ b.map View.word < a.map View.word

/-- **C34** for a glyph table already in the order of the words; missing: the other tables, for which it is
false. -/
theorem C34_ids_partial (S : StdSort) (glyphs : List (List View)) (hs : InWordOrder glyphs) :
    (viewsIndexes S glyphs).length = glyphs.length ∧ C34_statement S glyphs := by
  have hs' : glyphs.Pairwise fun a b => ltViews b a = false := hs.imp fun h => (ltViews_eq_false _ _).2 h
  refine ⟨?_, ?_⟩
  · obtain ⟨σ, _, _, hl, _⟩ := viewsIndexes_sorted S glyphs
    exact hl
  · intro i j hi hj
    rw [viewsIndexes_of_sorted S glyphs hs' i j hi hj]
    unfold words
    rw [List.getD_eq_getElem?_getD, List.getD_eq_getElem?_getD, List.getElem?_eq_getElem hi,
      List.getElem?_eq_getElem hj]
    simp [wordsOf]

/-- What holds of every table: the ids at positions `j` and `k` are those of the `j`-th and `k`-th glyphs in
the sorted order `σ`. -/
theorem C34_ids_by_rank (S : StdSort) (glyphs : List (List View)) :
    ∃ σ : List Nat, σ.Perm (List.range glyphs.length) ∧ InWordOrder (σ.map fun g => glyphs.getD g []) ∧
      (viewsIndexes S glyphs).length = glyphs.length ∧
      ∀ (k r : Nat), σ[k]? = some r → ∃ r', (viewsIndexes S glyphs)[k]? = some r' ∧
        (glyphs.getD r' []).map View.word = (glyphs.getD r []).map View.word := by
  obtain ⟨σ, hp, hs, hl, h1, _⟩ := viewsIndexes_sorted S glyphs
  refine ⟨σ, hp, ?_, hl, h1⟩
  unfold InWordOrder
  rw [List.pairwise_map]
  exact hs.imp fun h => (ltViews_eq_false _ _).1 h

example : viewsIndexes insertionSort [[⟨1, 0⟩], [⟨1, 4⟩], [⟨3, 0⟩], [⟨1, 0⟩, ⟨2, 0⟩], [⟨1, 1⟩, ⟨2, 1⟩]] =
    [0, 0, 2, 3, 3] := by decide

/-! ### C29, C31 -/

section
variable {P : Type} [LawfulDbl P]

/-- **C29**: with tables of `n` entries and buffers allocated for `n` entries, `compute_image` never writes
past a buffer (nor does anything else undefined), and the buffers hold distinct glyph indexes below `n`:
after the selection by the simple strategies and at the end. -/
theorem C29_buffers (s : Setup P) (val : Simple → Nat) (n : Nat) (img img90 : Image)
    (ok : SetupOk s val n img img90) (tmp0 : List (Nat × P)) :
    ∃ (U : List (Nat × P)) (o : Outcome P), computeSimpleUniverse s.cap s.first s.simple s.idx img img90 = .ok U ∧ Good n U ∧ U.length ≤ n ∧
      computeImage s tmp0 img img90 = .ok o ∧ Good n o.probs ∧ o.probs.length ≤ n ∧
      (Good n tmp0 → Good n o.tmp ∧ o.tmp.length ≤ n) := by
  obtain ⟨U, h1, h2, S, o, _, h4, h5, h6, _⟩ := computeImage_ok s val n img img90 ok tmp0
  exact ⟨U, o, h1, h2, h2.length, h4, h5, h5.length, fun h => ⟨h6 h, (h6 h).length⟩⟩

/-- **C31**: the result lists the views of candidates `S` of distinct view ids, best first.
If a candidate of the simple strategies is perfect and there are other strategies, `S` are the best of the
simple strategies and exactly the perfect ones are listed; otherwise `S` are the best of those left by the
other strategies and the list is cut at half of the best probability, and is empty only if none is left. -/
theorem C31_result (s : Setup P) (val : Simple → Nat) (n : Nat) (img img90 : Image)
    (ok : SetupOk s val n img img90) (tmp0 : List (Nat × P)) (hl : s.limit = Dbl.ofPct 50)
    (hv : [] ∉ s.glyphs) :
    ∃ (U S : List (Nat × P)) (o : Outcome P), computeSimpleUniverse s.cap s.first s.simple s.idx img img90 = .ok U ∧
      computeImage s tmp0 img img90 = .ok o ∧
      (¬ (s.complex = [] ∧ s.exclusive = []) → (∃ p ∈ U, Dbl.le (Dbl.ofPct 100) p.2 = true) →
        Best s.ids U S ∧ o.views = viewsOf s.glyphs S (Dbl.ofPct 100) ∧ o.views ≠ []) ∧
      (s.complex = [] ∧ s.exclusive = [] ∨ (∀ p ∈ U, Dbl.le (Dbl.ofPct 100) p.2 = false) →
        Best s.ids (survivors s img img90 U) S ∧
        (∀ best ∈ S.head?, o.views = viewsOf s.glyphs S (Dbl.mul best.2 (Dbl.ofPct 50))) ∧
        (o.views = [] ↔ survivors s img img90 U = [])) := by
  obtain ⟨U, h1, h2, S, o, h3, h4, _, _, h7⟩ := computeImage_ok s val n img img90 ok tmp0
  refine ⟨U, S, o, h1, h4, ?_⟩
  have hne : ∀ (p : Nat × P) (l : P), p ∈ S → Dbl.le l p.2 = true → viewsOf s.glyphs S l ≠ [] := by
    intro p l hp hle e
    unfold viewsOf at e
    rw [List.flatMap_eq_nil_iff] at e
    have := e p (List.mem_filter.2 ⟨hp, hle⟩)
    have hlt : p.1 < s.glyphs.length := by rw [ok.glyphs]; exact h3.2 p hp
    rw [List.getD_eq_getElem?_getD, List.getElem?_eq_getElem hlt] at this
    exact hv (this ▸ List.getElem_mem hlt)
  rcases h7 with ⟨a, b, ⟨p, hp, hp2⟩, d⟩ | ⟨a, b, c⟩
  · refine ⟨?_, ?_⟩
    · intro _ _
      refine ⟨b, d, ?_⟩
      obtain ⟨q, hq, _, hq2⟩ := b.cover p hp
      rw [d]
      exact hne q _ hq (LawfulDbl.trans _ _ _ hp2 hq2)
    · rintro (h | h)
      · exact absurd h a
      · rw [h p hp] at hp2
        exact absurd hp2 (by simp)
  · refine ⟨?_, ?_⟩
    · rintro h ⟨p, hp, hp2⟩
      rcases a with a | a
      · exact absurd a h
      · rw [a p hp] at hp2
        exact absurd hp2 (by simp)
    · intro _
      refine ⟨b, ?_, ?_⟩
      · intro best hb
        cases S with
        | nil => exact absurd hb (by simp)
        | cons q S =>
          simp only [List.head?_cons, Option.mem_def, Option.some.injEq] at hb
          subst hb
          rw [c, ← hl]
      · constructor
        · intro e
          cases S with
          | cons q S =>
            rw [c] at e
            simp only [] at e
            rw [hl] at e
            exact absurd e (hne q _ List.mem_cons_self (LawfulDbl.half_le q.2))
          | nil =>
            cases hs : survivors s img img90 U with
            | nil => rfl
            | cons u us =>
              obtain ⟨p, hp, _⟩ := b.cover u (by rw [hs]; exact List.mem_cons_self)
              exact absurd hp (by simp)
        · intro e
          cases S with
          | nil => rw [c]
          | cons q S =>
            have := b.sub q List.mem_cons_self
            rw [e] at this
            exact absurd this (by simp)

end

/-- A small setup: glyphs 0 and 2 have the same word, glyph 3 is too far for the complex strategy. -/
def sampleSetup (cap : Nat) : Setup Frac where
  sort := insertionSort
  first := ⟨100, fun _ _ => .ok 40, [38, 45, 40, 41]⟩
  simple := [⟨200, fun _ _ => .ok 100, [110, 100, 102, 100]⟩]
  complex := [⟨List Nat, arrayRel Nat, fun _ _ => .ok [1, 2], [[1, 2], [1, 3], [1, 2], [0, 0]]⟩]
  exclusive := [⟨Nat, equalRel, fun _ _ => .ok 5, [5, 5, 5, 5]⟩]
  cap := cap
  capTmp := 4
  idx := indexesOrdered insertionSort [38, 45, 40, 41]
  byWords := [[2], [], [0], []]
  glyphs := [[⟨1, 0⟩], [⟨2, 0⟩], [⟨1, 1⟩], [⟨3, 0⟩]]
  ids := [0, 1, 0, 3]
  limit := Dbl.ofPct 50

example : computeImage (sampleSetup 4) [] ⟨⟨0, 0⟩, []⟩ ⟨⟨0, 0⟩, []⟩ = .ok
    ⟨[⟨1, 1⟩], [(2, ⟨990000, 3⟩), (1, ⟨475000, 3⟩)], [(2, ⟨9900, 2⟩), (3, ⟨9900, 2⟩), (1, ⟨9500, 2⟩)]⟩ := by
  decide

/-- One entry less in the first buffer and it overflows. -/
example : computeImage (sampleSetup 3) [] ⟨⟨0, 0⟩, []⟩ ⟨⟨0, 0⟩, []⟩ = .ub := by decide

end Ppocr.Props

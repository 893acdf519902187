import Verif.Proofs.FilterAll
import Verif.Props.Filter

/-! # C36 and C38 on all lines: the exact condition on the first box, and what the filter does then -/

namespace Ppocr.Props
open Spec

/-! ## C36 -/

/-- **C36**, the first access outside of the buffer: exactly the lines of which the first box has no cell for its bottom. -/
theorem C36_low (infos : List WordInfo) (b : Box) (bs : List Box) (refs : List Nat) (st : List (List View))
    (hb : ∀ c ∈ b :: bs, BoxOk c) (hlen : (b :: bs).length = refs.length) (h : ¬ LowHeld b bs) :
    filterByLines infos (b :: bs) refs st = .ub := by
  apply C36_out_of_bounds infos b bs refs st hlen
  have hm := (least_ok Box.bottom b bs).1 b List.mem_cons_self
  rw [← (rangeAll_ok b bs hb).minBottom] at hm
  rw [lowHeld_iff hb] at h
  rw [usub_eq (by have := (hb b List.mem_cons_self).bottom; omega) hm]
  omega

open Classical in
/-- **C36**, the second one: the first letter counts for the meanline, and has no cell for its top. On all the other lines
the filter does not fail. -/
theorem C36_exact (infos : List WordInfo) (b : Box) (bs : List Box) (r : Nat) (rs : List Nat) (st : List (List View))
    (hs : InfosSorted infos) (hb : ∀ c ∈ b :: bs, BoxOk c) (hlen : (b :: bs).length = (r :: rs).length)
    (hn : (r :: rs).length + 1 < W32) (hr : RefsOk (r :: rs) st) (hst : StOk st) (hlow : LowHeld b bs) :
    ∃ baseline v0 mid0 n0, IsMode (seenBottoms b bs) baseline ∧ st[r]? = some v0 ∧
      LineFiltered (fun x => decide (Wrong infos WordLines.base b.bottom baseline x)) v0 mid0 n0 ∧
      (filterByLines infos (b :: bs) (r :: rs) st = .ub ↔ meanTop infos b mid0 n0 ≠ none ∧ ¬ TopHeld b bs) ∧
      (filterByLines infos (b :: bs) (r :: rs) st ≠ .ub →
        ∃ st', filterByLines infos (b :: bs) (r :: rs) st = .ok st' ∧ st'.length = st.length) := by
  obtain ⟨baseline, v0, mid0, n0, h1, h2, _, h3, h4, h5⟩ := filterByLines_all infos hs b bs r rs st hb
    ((lowHeld_iff hb).1 hlow) hlen hn hr hst
  have hok : ¬ (meanTop infos b mid0 n0 ≠ none ∧ ¬ TopHeld b bs) →
      ∃ st', filterByLines infos (b :: bs) (r :: rs) st = .ok st' ∧ st'.length = st.length := by
    intro hc
    obtain ⟨st', _, _, e, e2, _⟩ := h5 (by
      rw [← topHeld_iff hb]
      by_cases hm : meanTop infos b mid0 n0 = none
      · exact .inl hm
      · exact .inr (Classical.byContradiction fun h => hc ⟨hm, h⟩))
    exact ⟨st', e, e2⟩
  have hub : meanTop infos b mid0 n0 ≠ none ∧ ¬ TopHeld b bs → filterByLines infos (b :: bs) (r :: rs) st = .ub := by
    rintro ⟨hm, ht⟩
    rw [topHeld_iff hb] at ht
    exact h4 ⟨hm, by omega⟩
  refine ⟨baseline, v0, mid0, n0, h1, h2, h3, ⟨fun e => Classical.byContradiction fun hc => ?_, hub⟩, fun e => hok fun hc => e (hub hc)⟩
  obtain ⟨st', e', _⟩ := hok hc
  rw [e] at e'
  exact absurd e' (by simp)

/-- A letter with one word does not count for the meanline. -/
theorem meanTop_oneWord {p : View → Bool} {infos : List WordInfo} {b : Box} {v mid : List View} {n : Nat} (hv : OneWord v)
    (h : LineFiltered p v mid n) : meanTop infos b mid n = none := by
  have hn : n = 0 := by
    rcases h with ⟨_, _, h⟩ | ⟨g, k, rest, two, _⟩
    · exact h
    · obtain ⟨x, hx⟩ := List.exists_mem_of_ne_nil _ two.g_ne
      obtain ⟨y, hy⟩ := List.exists_mem_of_ne_nil _ two.h_ne
      exact absurd (hv x (by rw [two.eq]; simp [hx]) y (by rw [two.eq]; simp [hy])) (two.differ x hx y hy)
  unfold meanTop
  rw [if_neg (by omega)]

/-- **C36** when the candidates of the first letter are views of one word: the cell for its bottom is all it needs. -/
theorem C36_sure (infos : List WordInfo) (b : Box) (bs : List Box) (r : Nat) (rs : List Nat) (st : List (List View))
    (hs : InfosSorted infos) (hb : ∀ c ∈ b :: bs, BoxOk c) (hlen : (b :: bs).length = (r :: rs).length)
    (hn : (r :: rs).length + 1 < W32) (hr : RefsOk (r :: rs) st) (hst : StOk st)
    (hone : TopHeld b bs ∨ ∀ v, st[r]? = some v → OneWord v) :
    (filterByLines infos (b :: bs) (r :: rs) st = .ub ↔ ¬ LowHeld b bs) ∧
    (LowHeld b bs → ∃ st', filterByLines infos (b :: bs) (r :: rs) st = .ok st' ∧ st'.length = st.length) := by
  have hok : LowHeld b bs → ∃ st', filterByLines infos (b :: bs) (r :: rs) st = .ok st' ∧ st'.length = st.length := by
    intro hlow
    obtain ⟨_, v0, mid0, n0, _, h2, h3, h4, h5⟩ := C36_exact infos b bs r rs st hs hb hlen hn hr hst hlow
    apply h5
    rw [Ne, h4]
    rintro ⟨h6, h7⟩
    rcases hone with h | h
    · exact h7 h
    · exact h6 (meanTop_oneWord (h v0 h2) h3)
  refine ⟨⟨?_, C36_low infos b bs _ st hb hlen⟩, hok⟩
  intro e hlow
  obtain ⟨st', e', _⟩ := hok hlow
  rw [e] at e'
  exact absurd e' (by simp)

/-- A single letter has a cell, unless it is a point on the second row; so has a first letter that is lower than the others
when the tops are farther apart: rows 0 to 30 and 12 to 13, then 20 to 22, 40 to 50. -/
example : LowHeld ⟨0, 10, 5, 11⟩ [] ∧ ¬ LowHeld ⟨0, 1, 5, 1⟩ [] ∧ LowHeld ⟨0, 0, 5, 31⟩ [⟨10, 12, 5, 2⟩, ⟨20, 20, 5, 3⟩] ∧
    ¬ LowHeld ⟨0, 0, 5, 41⟩ [⟨10, 12, 5, 2⟩, ⟨20, 20, 5, 3⟩] := by
  refine ⟨.inl ⟨rfl, by decide⟩, ?_, .inr (by decide), ?_⟩
  all_goals
    rintro (⟨h, h'⟩ | h)
    · first | exact h' ⟨rfl, rfl⟩ | exact absurd h (by simp)
    · exact absurd h (by decide)

/-- With the first letter of two words, one of which sits on both lines, the top is written: outside of the buffer. -/
example : filterByLines [⟨1, ⟨0, 0, 0, 1⟩⟩, ⟨3, ⟨0, 0, 2, 2⟩⟩] [⟨0, 9, 5, 2⟩, ⟨10, 0, 5, 11⟩] [0, 1]
      [[⟨1, 0⟩, ⟨3, 0⟩], [⟨3, 0⟩]] = .ub ∧
    filterByLines [⟨1, ⟨0, 0, 0, 1⟩⟩, ⟨3, ⟨0, 0, 2, 2⟩⟩] [⟨0, 9, 5, 2⟩, ⟨10, 0, 5, 11⟩] [0, 1]
      [[⟨3, 0⟩], [⟨3, 0⟩]] = .ok [[⟨3, 0⟩], [⟨3, 0⟩]] ∧
    LowHeld ⟨0, 9, 5, 2⟩ [⟨10, 0, 5, 11⟩] ∧ ¬ TopHeld ⟨0, 9, 5, 2⟩ [⟨10, 0, 5, 11⟩] := by
  refine ⟨by decide, by decide, .inr (by decide), ?_⟩
  rintro (⟨h, h'⟩ | h)
  · exact absurd h (by simp)
  · exact absurd h (by decide)

/-! ## C38 -/

open Classical in
/-- **C38** on all the lines that have the two cells, no picture being repeated: the baseline is the most frequent bottom, not
counting the one of a first letter that is lower than all the others; the meanline is the most frequent top of the letters
left with a count of one and declared to sit on both lines, not counting the first letter when its top is the lowest, and
counting the bottom left in the buffer by a first letter that is lower than all the others. -/
theorem C38_position_all (infos : List WordInfo) (b : Box) (bs : List Box) (r : Nat) (rs : List Nat)
    (st : List (List View)) (hs : InfosSorted infos) (hb : ∀ c ∈ b :: bs, BoxOk c) (hlow : LowHeld b bs) (htop : TopHeld b bs)
    (hlen : (b :: bs).length = (r :: rs).length) (hn : (r :: rs).length + 1 < W32) (hr : RefsOk (r :: rs) st) (hst : StOk st)
    (hnd : (r :: rs).Nodup) :
    ∃ st' baseline mean, ∃ mids : List (List View × Nat),
      filterByLines infos (b :: bs) (r :: rs) st = .ok st' ∧
      IsMode (seenBottoms b bs) baseline ∧ IsMean infos b bs mids mean ∧
      (∀ q, q ∉ r :: rs → st'[q]? = st[q]?) ∧
      ∀ (k q : Nat) (c : Box), (r :: rs)[k]? = some q → (b :: bs)[k]? = some c →
        ∃ v mid n, st[q]? = some v ∧ mids[k]? = some (mid, n) ∧
          LineFiltered (fun x => decide (Wrong infos WordLines.base c.bottom baseline x)) v mid n ∧
          (meanTops infos (b :: bs) mids = [] → st'[q]? = some mid) ∧
          (meanTops infos (b :: bs) mids ≠ [] → ∃ l n', st'[q]? = some l ∧
            LineFiltered (fun x => decide (Wrong infos WordLines.mean c.y mean x)) mid l n') := by
  obtain ⟨baseline, _, _, _, h1, _, _, _, _, h5⟩ := filterByLines_all infos hs b bs r rs st hb
    ((lowHeld_iff hb).1 hlow) hlen hn hr hst
  obtain ⟨st', mean, mids, e, _, _, e2, e3, e4⟩ := h5 (.inr ((topHeld_iff hb).1 htop))
  refine ⟨st', baseline, mean, mids, e, h1, e2, e3, ?_⟩
  intro k q c hk hc
  obtain ⟨v, mid, n, i1, i2, _, i3, i4, i5⟩ := e4 hnd k q c hk hc
  refine ⟨v, mid, n, i1, i2, i3, i4, ?_⟩
  intro h
  obtain ⟨l, n', j1, _, j2⟩ := i5 h
  exact ⟨l, n', j1, j2⟩

theorem isMean_unique {infos : List WordInfo} {b : Box} {bs : List Box} {mids : List (List View × Nat)} {x y : Nat}
    (hx : IsMean infos b bs mids x) (hy : IsMean infos b bs mids y) : x = y := by
  by_cases h : seenTops infos b bs mids = []
  · rw [hx.2 h, hy.2 h]
  · exact mode_unique (hx.1 h) (hy.1 h)

/-- The claim itself on these lines. -/
theorem C38_own_copy_all (infos : List WordInfo) (b : Box) (bs : List Box) (r : Nat) (rs : List Nat)
    (st : List (List View)) (hs : InfosSorted infos) (hb : ∀ c ∈ b :: bs, BoxOk c) (hlow : LowHeld b bs) (htop : TopHeld b bs)
    (hlen : (b :: bs).length = (r :: rs).length) (hn : (r :: rs).length + 1 < W32) (hr : RefsOk (r :: rs) st) (hst : StOk st)
    (hnd : (r :: rs).Nodup) :
    ∃ st' st2, filterByLines infos (b :: bs) (r :: rs) st = .ok st' ∧
      filterByLines infos (b :: bs) (List.range (r :: rs).length) ((r :: rs).map fun r => st.getD r []) = .ok st2 ∧
      ∀ (k q : Nat), (r :: rs)[k]? = some q → st'[q]? = st2[k]? := by
  have hrange : List.range (r :: rs).length = 0 :: (List.range rs.length).map (· + 1) := by
    rw [List.length_cons, List.range_succ_eq_map]
  have hrl : (0 :: (List.range rs.length).map (· + 1)).length = (r :: rs).length := by simp
  obtain ⟨base, _, _, _, h2, _, _, _, _, h⟩ := filterByLines_all infos hs b bs r rs st hb
    ((lowHeld_iff hb).1 hlow) hlen hn hr hst
  obtain ⟨st', mean, mids, h1, _, h2', h3, h4, h5⟩ := h (.inr ((topHeld_iff hb).1 htop))
  obtain ⟨base2, _, _, _, g2, _, _, _, _, g⟩ := filterByLines_all infos hs b bs 0 ((List.range rs.length).map (· + 1))
      ((r :: rs).map fun r => st.getD r []) hb ((lowHeld_iff hb).1 hlow)
      (by rw [hrl]; exact hlen) (by rw [hrl]; exact hn)
      (by intro q hq; rw [List.length_map]; rw [← hrange] at hq; exact List.mem_range.1 hq)
      (by
        intro l hl
        obtain ⟨q, hq, rfl⟩ := List.mem_map.1 hl
        have := hr q hq
        rw [List.getD_eq_getElem?_getD, List.getElem?_eq_getElem this]
        exact hst _ (List.getElem_mem this))
  obtain ⟨st2, mean2, mids2, g1, _, g2', g3, g4, g5⟩ := g (.inr ((topHeld_iff hb).1 htop))
  rw [← hrange] at g1 g2' g4 g5
  have hbase := mode_unique h2 g2
  subst hbase
  have h5 := h5 hnd
  have g5 := g5 List.nodup_range
  have box : ∀ (k q : Nat), (r :: rs)[k]? = some q → ∃ c, (b :: bs)[k]? = some c := by
    intro k q hk
    have hlt := (List.getElem?_eq_some_iff.1 hk).1
    rw [← hlen] at hlt
    exact ⟨_, List.getElem?_eq_getElem hlt⟩
  have rng : ∀ (k q : Nat), (r :: rs)[k]? = some q → (List.range (r :: rs).length)[k]? = some k ∧
      ((r :: rs).map fun r => st.getD r [])[k]? = st[q]? := by
    intro k q hk
    have hlt := (List.getElem?_eq_some_iff.1 hk).1
    have hlr := hr q (List.mem_of_getElem? hk)
    refine ⟨List.getElem?_range hlt, ?_⟩
    rw [List.getElem?_map, hk, Option.map_some, List.getD_eq_getElem?_getD, List.getElem?_eq_getElem hlr]
    rfl
  have hmids : mids = mids2 := by
    apply List.ext_getElem?
    intro k
    by_cases hk : k < (r :: rs).length
    · have hk' := List.getElem?_eq_getElem hk
      obtain ⟨c, hc⟩ := box k _ hk'
      obtain ⟨v, mid, n, i1, i2, i3, _⟩ := h5 k _ c hk' hc
      obtain ⟨v', mid', n', j1, j2, j3, _⟩ := g5 k k c (rng k _ hk').1 hc
      rw [(rng k _ hk').2, i1] at j1
      cases j1
      rw [i3] at j3
      cases j3
      rw [i2, j2]
    · rw [List.getElem?_eq_none (by omega), List.getElem?_eq_none (by rw [g2', List.length_range]; omega)]
  subst hmids
  refine ⟨st', st2, h1, by rw [← g1], ?_⟩
  intro k q hk
  obtain ⟨c, hc⟩ := box k q hk
  obtain ⟨v, mid, n, i1, i2, i3, _, i4, i5⟩ := h5 k q c hk hc
  obtain ⟨v', mid', n', j1, j2, j3, _, j4, j5⟩ := g5 k k c (rng k _ hk).1 hc
  rw [i2] at j2
  cases j2
  by_cases ht : meanTops infos (b :: bs) mids = []
  · rw [i4 ht, j4 ht]
  · obtain ⟨l, m, a1, a2, _⟩ := i5 ht
    obtain ⟨l', m', b1, b2, _⟩ := j5 ht
    have := isMean_unique h3 g3
    subst this
    rw [a2] at b2
    cases b2
    rw [a1, b1]

/-- A first letter lower than all the others: its bottom is not the baseline of the line, and stays in the buffer as a top. -/
example : LowHeld ⟨0, 0, 5, 31⟩ [⟨10, 12, 5, 2⟩, ⟨20, 20, 5, 3⟩] ∧
    seenBottoms ⟨0, 0, 5, 31⟩ [⟨10, 12, 5, 2⟩, ⟨20, 20, 5, 3⟩] = [13, 22] ∧
    leftTops ⟨0, 0, 5, 31⟩ [⟨10, 12, 5, 2⟩, ⟨20, 20, 5, 3⟩] = [17] := by
  exact ⟨.inr (by decide), by decide, by decide⟩

end Ppocr.Props

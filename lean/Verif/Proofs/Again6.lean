import Verif.Proofs.More6

/-! # Lemmas about glyphs that were learnt several times, in `extract_text6` -/

namespace Ppocr
open Spec Props

/-- Two glyphs of `gs` at different places can be found in `gs'` too. -/
def PairsIn (gs gs' : List LGlyph) : Prop := ∀ (g j : Nat) (x y : LGlyph), j ≠ g → gs[g]? = some x → gs[j]? = some y →
  ∃ (g' j' : Nat) (x' y' : LGlyph), j' ≠ g' ∧ gs'[g']? = some x' ∧ gs'[j']? = some y' ∧ pictured x' = pictured x ∧ pictured y' = pictured y

/-- Each glyph of `gs` can be found in `gs'`. -/
def EachIn (gs gs' : List LGlyph) : Prop := ∀ x ∈ gs, ∃ x' ∈ gs', pictured x' = pictured x

section
variable {gs gs' : List LGlyph} {W : LGlyph → Words} {a : Image}

theorem eachIn_get (h : EachIn gs gs') {g : Nat} {x : LGlyph} (hg : gs[g]? = some x) : ∃ (g' : Nat) (x' : LGlyph), gs'[g']? = some x' ∧ pictured x' = pictured x := by
  obtain ⟨x', hm, e⟩ := h x (List.mem_of_getElem? hg)
  obtain ⟨g', hg'⟩ := List.getElem?_of_mem hm
  exact ⟨g', x', hg', e⟩

theorem map_get {α : Type} {f : LGlyph → α} {g : Nat} {v : α} : (gs.map f)[g]? = some v ↔ ∃ x, gs[g]? = some x ∧ f x = v := by
  rw [List.getElem?_map, Option.map_eq_some_iff]

theorem match_in (h : EachIn gs gs') (hW : ∀ x y, pictured x = pictured y → W x = W y) {v : Words}
    (hm : ∃ j, Match6 (gs.map LGlyph.img) a j ∧ (gs.map W)[j]? = some v) :
    ∃ j, Match6 (gs'.map LGlyph.img) a j ∧ (gs'.map W)[j]? = some v := by
  obtain ⟨j, ⟨i, hi, hx⟩, hv⟩ := hm
  obtain ⟨x, hj, rfl⟩ := map_get.1 hv
  obtain ⟨x', hj', rfl⟩ := map_get.1 hi
  rw [hj, Option.some.injEq] at hj'
  subst hj'
  obtain ⟨k, y, hk, e⟩ := eachIn_get h hj
  exact ⟨k, ⟨y.img, map_get.2 ⟨y, hk, rfl⟩, by rw [show y.img = x.img from congrArg Prod.fst e]; exact hx⟩, map_get.2 ⟨y, hk, hW _ _ e⟩⟩

theorem matches_in (h : EachIn gs gs') (hm : ∃ j, Match6 (gs.map LGlyph.img) a j) : ∃ j, Match6 (gs'.map LGlyph.img) a j := by
  obtain ⟨j, i, hi, hx⟩ := hm
  obtain ⟨x, hj, rfl⟩ := map_get.1 hi
  obtain ⟨k, y, hk, e⟩ := eachIn_get h hj
  exact ⟨k, y.img, map_get.2 ⟨y, hk, rfl⟩, by rw [show y.img = x.img from congrArg Prod.fst e]; exact hx⟩

theorem near_in (h : EachIn gs gs') (hW : ∀ x y, pictured x = pictured y → W x = W y) {v : Words}
    (hm : ∃ (j : Nat) (i : Image), (gs.map LGlyph.img)[j]? = some i ∧ Near6 i a ∧ (gs.map W)[j]? = some v) :
    ∃ (j : Nat) (i : Image), (gs'.map LGlyph.img)[j]? = some i ∧ Near6 i a ∧ (gs'.map W)[j]? = some v := by
  obtain ⟨j, i, hi, hx, hv⟩ := hm
  obtain ⟨x, hj, rfl⟩ := map_get.1 hv
  obtain ⟨x', hj', rfl⟩ := map_get.1 hi
  rw [hj, Option.some.injEq] at hj'
  subst hj'
  obtain ⟨k, y, hk, e⟩ := eachIn_get h hj
  exact ⟨k, y.img, map_get.2 ⟨y, hk, rfl⟩, by rw [show y.img = x.img from congrArg Prod.fst e]; exact hx, map_get.2 ⟨y, hk, hW _ _ e⟩⟩

theorem twin_get {g j : Nat} (h : Twin6 (gs.map W) g j) : j ≠ g ∧ ∃ x y, gs[g]? = some x ∧ gs[j]? = some y ∧ (W y).head? = (W x).head? := by
  obtain ⟨hne, v, u, hv, hu, e⟩ := h
  obtain ⟨x, hx, rfl⟩ := map_get.1 hv
  obtain ⟨y, hy, rfl⟩ := map_get.1 hu
  exact ⟨hne, x, y, hx, hy, e⟩

theorem twin_of {g j : Nat} {x y : LGlyph} (hne : j ≠ g) (hx : gs[g]? = some x) (hy : gs[j]? = some y) (e : (W y).head? = (W x).head?) :
    Twin6 (gs.map W) g j := ⟨hne, W x, W y, map_get.2 ⟨x, hx, rfl⟩, map_get.2 ⟨y, hy, rfl⟩, e⟩

theorem kept_in (h : EachIn gs gs') (hp : PairsIn gs gs') (hp' : PairsIn gs' gs) (hW : ∀ x y, pictured x = pictured y → W x = W y) {v : Words}
    (hm : ∃ j, Kept6 (gs.map LGlyph.img) (gs.map W) a j ∧ (gs.map W)[j]? = some v) :
    ∃ j, Kept6 (gs'.map LGlyph.img) (gs'.map W) a j ∧ (gs'.map W)[j]? = some v := by
  obtain ⟨g, ⟨⟨i, hi, h1, h2⟩, h3⟩, hv⟩ := hm
  obtain ⟨x, hg, rfl⟩ := map_get.1 hv
  obtain ⟨x', hg', rfl⟩ := map_get.1 hi
  rw [hg, Option.some.injEq] at hg'
  subst hg'
  rcases h3 with h3 | ⟨j, b, ht, hb, hz⟩
  · obtain ⟨k, y, hk, e⟩ := eachIn_get h hg
    refine ⟨k, ⟨⟨y.img, map_get.2 ⟨y, hk, rfl⟩, ?_⟩, .inl ?_⟩, map_get.2 ⟨y, hk, hW _ _ e⟩⟩
    · rw [show y.img = x.img from congrArg Prod.fst e]
      exact ⟨h1, h2⟩
    · intro j ht
      obtain ⟨hne, y1, z, hy1, hz, he⟩ := twin_get ht
      rw [hk, Option.some.injEq] at hy1
      subst hy1
      obtain ⟨g2, j2, x2, z2, hne2, hx2, hz2, e2, ez⟩ := hp' k j y z hne hk hz
      by_cases h0 : g2 = g
      · subst h0
        rw [hg, Option.some.injEq] at hx2
        subst hx2
        exact h3 j2 (twin_of hne2 hg hz2 (by rw [hW _ _ ez, he, hW _ _ e]))
      · exact h3 g2 (twin_of h0 hg hx2 (by rw [hW _ _ (e2.trans e)]))
  · obtain ⟨hne, x1, y, hx1, hy, he⟩ := twin_get ht
    rw [hg, Option.some.injEq] at hx1
    subst hx1
    obtain ⟨y1, hy1, rfl⟩ := map_get.1 hb
    rw [hy, Option.some.injEq] at hy1
    subst hy1
    obtain ⟨g', j', x', y', hne', hx', hy', ex, ey⟩ := hp g j x y hne hg hy
    refine ⟨g', ⟨⟨x'.img, map_get.2 ⟨x', hx', rfl⟩, ?_⟩, .inr ⟨j', y'.img, twin_of hne' hx' hy' (by rw [hW _ _ ex, hW _ _ ey, he]),
      map_get.2 ⟨y', hy', rfl⟩, ?_⟩⟩, map_get.2 ⟨x', hx', hW _ _ ex⟩⟩
    · rw [show x'.img = x.img from congrArg Prod.fst ex]
      exact ⟨h1, h2⟩
    · rw [show y'.img = y.img from congrArg Prod.fst ey]
      exact hz

theorem jam_in (h : EachIn gs' gs) (hp : PairsIn gs gs') (hW : ∀ x y, pictured x = pictured y → W x = W y)
    (hj : Jam6 (gs.map LGlyph.img) (gs.map W) a) : Jam6 (gs'.map LGlyph.img) (gs'.map W) a := by
  obtain ⟨h0, g, i, j, b, hi, h1, h2, ht, hb, hz, hc⟩ := hj
  obtain ⟨hne, x, y, hg, hy, he⟩ := twin_get ht
  obtain ⟨x1, hx1, rfl⟩ := map_get.1 hi
  rw [hg, Option.some.injEq] at hx1
  subst hx1
  obtain ⟨y1, hy1, rfl⟩ := map_get.1 hb
  rw [hy, Option.some.injEq] at hy1
  subst hy1
  obtain ⟨g', j', x', y', hne', hx', hy', ex, ey⟩ := hp g j x y hne hg hy
  refine ⟨fun k hk => ?_, g', x'.img, j', y'.img, map_get.2 ⟨x', hx', rfl⟩, ?_, ?_, twin_of hne' hx' hy' (by rw [hW _ _ ex, hW _ _ ey, he]),
    map_get.2 ⟨y', hy', rfl⟩, ?_, ?_⟩
  · obtain ⟨k', hk'⟩ := matches_in h ⟨k, hk⟩
    exact h0 k' hk'
  all_goals first | rw [show x'.img = x.img from congrArg Prod.fst ex]; assumption | rw [show y'.img = y.img from congrArg Prod.fst ey]; assumption

/-- Two glyphs at different places are different, or are there twice. -/
theorem two_le_count {α : Type} [BEq α] [LawfulBEq α] {l : List α} {g j : Nat} {p : α} (hne : j ≠ g) (hg : l[g]? = some p) (hj : l[j]? = some p) :
    2 ≤ l.count p := by
  induction l generalizing g j with
  | nil => simp at hg
  | cons b l ih =>
    cases g with
    | zero =>
      cases j with
      | zero => exact absurd rfl hne
      | succ j =>
        simp only [List.getElem?_cons_zero, Option.some.injEq, List.getElem?_cons_succ] at hg hj
        subst hg
        have := List.count_pos_iff.2 (List.mem_of_getElem? hj)
        rw [List.count_cons_self]
        omega
    | succ g =>
      cases j with
      | zero =>
        simp only [List.getElem?_cons_zero, Option.some.injEq, List.getElem?_cons_succ] at hg hj
        subst hj
        have := List.count_pos_iff.2 (List.mem_of_getElem? hg)
        rw [List.count_cons_self]
        omega
      | succ j =>
        simp only [List.getElem?_cons_succ] at hg hj
        have := ih (by omega) hg hj
        have := List.count_le_count_cons (a := p) (b := b) (l := l)
        omega

theorem count_two {α : Type} [BEq α] [LawfulBEq α] {l : List α} {p : α} (h : 2 ≤ l.count p) : ∃ g j : Nat, j ≠ g ∧ l[g]? = some p ∧ l[j]? = some p := by
  induction l with
  | nil => simp at h
  | cons b l ih =>
    by_cases e : b = p
    · subst e
      rw [List.count_cons_self] at h
      obtain ⟨j, hj⟩ := List.getElem?_of_mem (List.count_pos_iff.1 (show 0 < l.count b by omega))
      exact ⟨0, j + 1, by omega, rfl, hj⟩
    · rw [List.count_cons_of_ne e] at h
      obtain ⟨g, j, hne, hg, hj⟩ := ih h
      exact ⟨g + 1, j + 1, by omega, hg, hj⟩

theorem counts_in (h : ∀ p, min 2 ((gs.map pictured).count p) ≤ min 2 ((gs'.map pictured).count p)) : EachIn gs gs' ∧ PairsIn gs gs' := by
  have hmem : ∀ p, p ∈ gs.map pictured → p ∈ gs'.map pictured := by
    intro p hp
    have := List.count_pos_iff.2 hp
    have := h p
    exact List.count_pos_iff.1 (by omega)
  constructor
  · intro x hx
    obtain ⟨x', hm, e⟩ := List.mem_map.1 (hmem _ (List.mem_map_of_mem hx))
    exact ⟨x', hm, e⟩
  · intro g j x y hne hg hj
    by_cases e : pictured y = pictured x
    · have h2 := two_le_count hne (map_get.2 ⟨x, hg, rfl⟩) (map_get.2 ⟨y, hj, e⟩)
      have := h (pictured x)
      obtain ⟨g', j', hne', hg', hj'⟩ := count_two (show 2 ≤ (gs'.map pictured).count (pictured x) by omega)
      obtain ⟨x', hx', ex⟩ := map_get.1 hg'
      obtain ⟨y', hy', ey⟩ := map_get.1 hj'
      exact ⟨g', j', x', y', hne', hx', hy', ex, ey.trans e.symm⟩
    · obtain ⟨g', hg'⟩ := List.getElem?_of_mem (hmem _ (List.mem_of_getElem? (map_get.2 ⟨x, hg, rfl⟩)))
      obtain ⟨j', hj'⟩ := List.getElem?_of_mem (hmem _ (List.mem_of_getElem? (map_get.2 ⟨y, hj, rfl⟩)))
      obtain ⟨x', hx', ex⟩ := map_get.1 hg'
      obtain ⟨y', hy', ey⟩ := map_get.1 hj'
      refine ⟨g', j', x', y', ?_, hx', hy', ex, ey⟩
      intro he
      rw [he, hx', Option.some.injEq] at hy'
      rw [← hy'] at ey
      exact e (ey.symm.trans ex)

end

end Ppocr

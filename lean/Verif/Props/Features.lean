import Verif.Proofs.Features

/-! # C15, C16, C17, C19: scalar features -/

namespace Ppocr.Props
open Ppocr Spec

/-- A 3×5 picture: an `L` with a dot in the top right corner. -/
def img35 : Image := ⟨⟨3, 5⟩, [120, 45, 120,
                               120, 45, 45,
                               120, 45, 45,
                               120, 45, 45,
                               120, 120, 120]⟩

theorem img35_WF : img35.WF := ⟨by decide, by decide, by decide, by decide⟩

/-- **C15, density**: the percentage of letter pixels. -/
theorem C15_density (i : Image) (wf : i.WF) (hw : 0 < i.bounds.w) (hh : 0 < i.bounds.h)
    (hsz : 100 * (i.bounds.w * i.bounds.h) < W32) :
    densityLoad i = .ok (100 * mass i / (i.bounds.w * i.bounds.h)) ∧
      100 * mass i / (i.bounds.w * i.bounds.h) ≤ 100 := by
  have hm := mass_le i
  have hpos : 0 < i.bounds.w * i.bounds.h := Nat.mul_pos hw hh
  constructor
  · unfold densityLoad
    rw [density_count wf, Nat.mod_eq_of_lt (by omega)]
    simp only [Res.ok_bind, udiv]
    rw [area_eq wf, if_neg (by omega), umul_eq (by omega), Nat.mul_comm]
  · apply Nat.div_le_of_le_mul
    rw [Nat.mul_comm _ 100]
    omega

example : densityLoad img35 = .ok 53 := by decide

/-- **C15, proportionality**. -/
theorem C15_proportionality (i : Image) (hw : 0 < i.bounds.w) (hh : 0 < i.bounds.h)
    (hsz : 100 * (i.bounds.w * i.bounds.h) < W32) :
    proportionalityLoad i = .ok (100 * i.bounds.w / (i.bounds.w + i.bounds.h)) ∧
      100 * i.bounds.w / (i.bounds.w + i.bounds.h) ≤ 100 := by
  have h1 : i.bounds.w * 1 ≤ i.bounds.w * i.bounds.h := Nat.mul_le_mul_left _ hh
  have h2 : 1 * i.bounds.h ≤ i.bounds.w * i.bounds.h := Nat.mul_le_mul_right _ hw
  constructor
  · unfold proportionalityLoad udiv
    rw [uadd_eq (by omega), umul_eq (by omega), if_neg (by omega), Nat.mul_comm]
  · apply Nat.div_le_of_le_mul
    rw [Nat.mul_comm _ 100]
    omega

example : proportionalityLoad img35 = .ok 37 := by decide

/-- **C16, horizontal direction**: the numbers of letter pixels strictly above and strictly below the
middle row, for every image. -/
theorem C16_horizontal_direction (i : Image) (wf : i.WF) (hw : 0 < i.bounds.w)
    (hh : 0 < i.bounds.h) :
    horizontalDirection i = .ok ⟨topMass i unit wholeRow, bottomMass i unit wholeRow⟩ := by
  obtain ⟨h1, h2, h3⟩ := direction_bound wf wholeRow
  rw [horizontalDirection_mod wf hw hh, Nat.mod_eq_of_lt (by omega), Nat.mod_eq_of_lt (by omega)]

example : horizontalDirection img35 = .ok ⟨3, 4⟩ := by decide
example : topMass img35 unit wholeRow = 3 ∧ bottomMass img35 unit wholeRow = 4 := by decide

/-- **C16, diagonal direction**: the same restricted to the two triangles pointing to the middle. -/
theorem C16_diagonal_direction (i : Image) (wf : i.WF) (hw : 0 < i.bounds.w)
    (hh : 0 < i.bounds.h) :
    diagDirection i = .ok ⟨topMass i unit (triangle i), bottomMass i unit (triangle i)⟩ := by
  obtain ⟨h1, h2, h3⟩ := direction_bound wf (triangle i)
  rw [diagDirection_mod wf hw hh, Nat.mod_eq_of_lt (by omega), Nat.mod_eq_of_lt (by omega)]

example : diagDirection img35 = .ok ⟨2, 3⟩ := by decide

/-- **C16, horizontal gravity**: letter pixels weighted by their distance to the middle.  For every
image; the sums are taken modulo 2^32. -/
theorem C16_horizontal_gravity (i : Image) (wf : i.WF) (hw : 0 < i.bounds.w)
    (hh : 0 < i.bounds.h) :
    horizontalGravity i = .ok ⟨topMass i (toMiddle i) wholeRow % W32,
      bottomMass i (toMiddle i) wholeRow % W32⟩ := horizontalGravity_mod wf hw hh

example : horizontalGravity img35 = .ok ⟨5, 7⟩ := by decide

/-- **C16, diagonal gravity**. -/
theorem C16_diagonal_gravity (i : Image) (wf : i.WF) (hw : 0 < i.bounds.w)
    (hh : 0 < i.bounds.h) :
    diagGravity i = .ok ⟨topMass i (toMiddle i) (triangle i) % W32,
      bottomMass i (toMiddle i) (triangle i) % W32⟩ := diagGravity_mod wf hw hh

example : diagGravity img35 = .ok ⟨4, 6⟩ := by decide

/-- **C16, middle row**: it has no influence on any of the four measures. -/
theorem C16_middle_row (i j : Image) (wi : i.WF) (wj : j.WF) (hw : 0 < i.bounds.w)
    (hh : 0 < i.bounds.h) (h : SameButMiddle i j) :
    horizontalDirection j = horizontalDirection i ∧ horizontalGravity j = horizontalGravity i ∧
    diagDirection j = diagDirection i ∧ diagGravity j = diagGravity i := by
  have hb := h.bounds
  have hw' : 0 < j.bounds.w := by rw [hb]; exact hw
  have hh' : 0 < j.bounds.h := by rw [hb]; exact hh
  have hm := masses_of_halves hb h.cells
  have ht : triangle j = triangle i := by unfold triangle; rw [hb]
  have hmid : toMiddle j = toMiddle i := by unfold toMiddle; rw [hb]
  rw [horizontalDirection_mod wj hw' hh', horizontalDirection_mod wi hw hh,
    horizontalGravity_mod wj hw' hh', horizontalGravity_mod wi hw hh,
    diagDirection_mod wj hw' hh', diagDirection_mod wi hw hh,
    diagGravity_mod wj hw' hh', diagGravity_mod wi hw hh, ht, hmid]
  simp only [(hm _ _).1, (hm _ _).2, and_self]

example : horizontalGravity ⟨⟨1, 3⟩, [120, 45, 45]⟩ = horizontalGravity ⟨⟨1, 3⟩, [120, 120, 45]⟩ :=
  by decide

/-- **C17.** Mirroring the image top to bottom exchanges the two measures of each feature. -/
theorem C17_mirror (i m : Image) (wi : i.WF) (wm : m.WF) (hw : 0 < i.bounds.w)
    (hh : 0 < i.bounds.h) (h : Mirror i m) :
    (∀ t, horizontalDirection i = .ok t → horizontalDirection m = .ok ⟨t.bottom, t.top⟩) ∧
    (∀ t, horizontalGravity i = .ok t → horizontalGravity m = .ok ⟨t.bottom, t.top⟩) ∧
    (∀ t, diagDirection i = .ok t → diagDirection m = .ok ⟨t.bottom, t.top⟩) ∧
    (∀ t, diagGravity i = .ok t → diagGravity m = .ok ⟨t.bottom, t.top⟩) := by
  have hb := h.bounds
  have hw' : 0 < m.bounds.w := by rw [hb]; exact hw
  have hh' : 0 < m.bounds.h := by rw [hb]; exact hh
  have ht : triangle m = triangle i := by unfold triangle; rw [hb]
  have hmid : toMiddle m = toMiddle i := by unfold toMiddle; rw [hb]
  have h1 : ∀ wt sp, topMass m wt sp = bottomMass i wt sp := by
    intro wt sp
    unfold topMass bottomMass
    rw [hb]
    apply sumTo_congr
    intro k hk
    rw [rowMass_congr fun x => h.cells x k (by omega)]
  have h2 : ∀ wt sp, bottomMass m wt sp = topMass i wt sp := by
    intro wt sp
    unfold topMass bottomMass
    rw [hb]
    apply sumTo_congr
    intro k hk
    rw [rowMass_congr fun x => h.cells x (i.bounds.h - 1 - k) (by omega)]
    rw [show i.bounds.h - 1 - (i.bounds.h - 1 - k) = k by omega]
  rw [horizontalDirection_mod wm hw' hh', horizontalDirection_mod wi hw hh,
    horizontalGravity_mod wm hw' hh', horizontalGravity_mod wi hw hh,
    diagDirection_mod wm hw' hh', diagDirection_mod wi hw hh,
    diagGravity_mod wm hw' hh', diagGravity_mod wi hw hh, ht, hmid]
  simp only [h1, h2]
  refine ⟨?_, ?_, ?_, ?_⟩ <;> intro t e <;> cases e <;> rfl

example : horizontalGravity ⟨⟨2, 2⟩, [120, 120, 45, 120]⟩ = .ok ⟨2, 1⟩ ∧
    horizontalGravity ⟨⟨2, 2⟩, [45, 120, 120, 120]⟩ = .ok ⟨1, 2⟩ := by decide

/-- **C15, hdirection and dvdirection** are in [0, 200]; moreover the value is the share of the top
half. -/
theorem C15_direction200 (i : Image) (wf : i.WF) (hw : 0 < i.bounds.w) (hh : 0 < i.bounds.h)
    (hsz : 100 * (i.bounds.w * i.bounds.h) < W32) :
    (∃ v, hdirectionLoad i = .ok v ∧ v ≤ 200) ∧ (∃ v, dvdirectionLoad i = .ok v ∧ v ≤ 200) := by
  have h4 := half_le i
  constructor
  · obtain ⟨h1, h2, _⟩ := direction_bound wf wholeRow
    obtain ⟨v, g1, g2, _⟩ := ratio200_ok (t := ⟨topMass i unit wholeRow, bottomMass i unit wholeRow⟩)
      h1 h2 (by omega)
    refine ⟨v, ?_, g2⟩
    unfold hdirectionLoad
    rw [C16_horizontal_direction i wf hw hh]
    exact g1
  · obtain ⟨h1, h2, _⟩ := direction_bound wf (triangle i)
    obtain ⟨v, g1, g2, _⟩ := ratio200_ok
      (t := ⟨topMass i unit (triangle i), bottomMass i unit (triangle i)⟩) h1 h2 (by omega)
    refine ⟨v, ?_, g2⟩
    unfold dvdirectionLoad
    rw [C16_diagonal_direction i wf hw hh]
    exact g1

example : hdirectionLoad img35 = .ok 85 ∧ dvdirectionLoad img35 = .ok 80 := by decide

theorem C15_hdirection2 (i : Image) (wf : i.WF) (hw : 0 < i.bounds.w) (hh : 0 < i.bounds.h)
    (hsz : 100 * (i.bounds.w * i.bounds.h) < W32) : ∃ v, hdirection2Load i = .ok v ∧ v ≤ 100 := by
  have h4 := half_le i
  obtain ⟨h1, h2, h3⟩ := direction_bound wf wholeRow
  unfold hdirection2Load
  simp only
  by_cases h0 : i.bounds.h / 2 = 0
  · rw [if_pos h0]
    exact ⟨50, rfl, by omega⟩
  · rw [if_neg h0, C16_horizontal_direction i wf hw hh, umul_eq h3]
    exact percent100_ok h1 h2 (by omega) (Nat.mul_pos (by omega) hw)

example : hdirection2Load img35 = .ok 41 := by decide

/-- **C15, dvdirection2** is in [0, 100].  The formula also shows that it does not depend on the
bottom half at all. -/
theorem C15_dvdirection2 (i : Image) (wf : i.WF) (hw : 0 < i.bounds.w) (hh : 1 < i.bounds.h)
    (hsz : 100 * (i.bounds.w * i.bounds.h) < W32) :
    dvdirection2Load i = .ok (topMass i unit (triangle i) * 100 / spanSum i unit (triangle i)) ∧
      topMass i unit (triangle i) * 100 / spanSum i unit (triangle i) ≤ 100 := by
  have h1 := topMass_le i unit (triangle i)
  have h2 := bottomMass_le i unit (triangle i)
  have h3 := spanSum_mono i unit (triangle i)
  rw [spanSum_unit_whole] at h3
  have h4 := half_le i
  have hp := spanSum_pos hw hh unit (by decide)
  constructor
  · unfold dvdirection2Load
    rw [diagDirArea_mod wf hw (by omega), Nat.mod_eq_of_lt (by omega)]
    simp only [Res.ok_bind]
    rw [if_neg (by rw [umul_eq (by omega)]; omega), C16_diagonal_direction i wf hw (by omega)]
    simp only [Res.ok_bind]
    exact percentDv_ok (t := ⟨_, _⟩) h1 h2 (by omega) hp
  · apply Nat.div_le_of_le_mul
    exact Nat.mul_le_mul_right _ h1

example : dvdirection2Load img35 = .ok 50 := by decide

/-- Below two rows the diagonal features are constant. -/
theorem C15_dv2_single_row (i : Image) (wf : i.WF) (hw : 0 < i.bounds.w) (hh : i.bounds.h = 1) :
    dvdirection2Load i = .ok 50 ∧ dvgravity2Load i = .ok 50 := by
  have hd : i.bounds.h / 2 = 0 := by omega
  constructor
  · unfold dvdirection2Load
    rw [diagDirArea_mod wf hw (by omega)]
    simp [spanSum, hd, sumTo_zero, umul]
  · unfold dvgravity2Load
    rw [diagGravArea_mod wf hw (by omega)]
    simp [spanSum, hd, sumTo_zero, umul]

/-- **C15, hgravity and dvgravity** are in [0, 200] as long as the weighted mass of a half, times 200,
fits in 32 bits. -/
theorem C15_gravity200 (i : Image) (wf : i.WF) (hw : 0 < i.bounds.w) (hh : 0 < i.bounds.h)
    (hsz : 200 * (i.bounds.h / 2 * (i.bounds.h / 2 + 1) / 2 * i.bounds.w) < W32) :
    (∃ v, hgravityLoad i = .ok v ∧ v ≤ 200) ∧ (∃ v, dvgravityLoad i = .ok v ∧ v ≤ 200) := by
  constructor
  · obtain ⟨h1, h2⟩ := gravity_bound i wholeRow
    obtain ⟨v, g1, g2, _⟩ := ratio200_ok
      (t := ⟨topMass i (toMiddle i) wholeRow, bottomMass i (toMiddle i) wholeRow⟩) h1 h2 (by omega)
    refine ⟨v, ?_, g2⟩
    unfold hgravityLoad
    rw [horizontalGravity_mod wf hw hh, Nat.mod_eq_of_lt (by omega), Nat.mod_eq_of_lt (by omega)]
    exact g1
  · obtain ⟨h1, h2⟩ := gravity_bound i (triangle i)
    obtain ⟨v, g1, g2, _⟩ := ratio200_ok
      (t := ⟨topMass i (toMiddle i) (triangle i), bottomMass i (toMiddle i) (triangle i)⟩) h1 h2
      (by omega)
    refine ⟨v, ?_, g2⟩
    unfold dvgravityLoad
    rw [diagGravity_mod wf hw hh, Nat.mod_eq_of_lt (by omega), Nat.mod_eq_of_lt (by omega)]
    exact g1

example : hgravityLoad img35 = .ok 83 ∧ dvgravityLoad img35 = .ok 80 := by decide

theorem C15_hgravity2 (i : Image) (wf : i.WF) (hw : 0 < i.bounds.w) (hh : 0 < i.bounds.h)
    (hsz : 200 * (i.bounds.h / 2 * (i.bounds.h / 2 + 1) / 2 * i.bounds.w) < W32)
    (hsq : i.bounds.h / 2 * (i.bounds.h / 2 + 1) < W32) :
    ∃ v, hgravity2Load i = .ok v ∧ v ≤ 100 := by
  obtain ⟨h1, h2⟩ := gravity_bound i wholeRow
  have hhl := wf.h_lt
  unfold hgravity2Load
  simp only
  by_cases h0 : i.bounds.h / 2 = 0
  · rw [if_pos h0]
    exact ⟨50, rfl, by omega⟩
  · rw [if_neg h0, horizontalGravity_mod wf hw hh, Nat.mod_eq_of_lt (by omega),
      Nat.mod_eq_of_lt (by omega), uadd_eq (by omega), umul_eq hsq, umul_eq (a := _ / 2) (by omega)]
    have : 1 * 2 ≤ i.bounds.h / 2 * (i.bounds.h / 2 + 1) := Nat.mul_le_mul (by omega) (by omega)
    exact percent100_ok h1 h2 (by omega) (Nat.mul_pos (by omega) hw)

example : hgravity2Load img35 = .ok 38 := by decide

/-- **C15, dvgravity2** is in [0, 100] (and again does not see the bottom half). -/
theorem C15_dvgravity2 (i : Image) (wf : i.WF) (hw : 0 < i.bounds.w) (hh : 1 < i.bounds.h)
    (hsz : 200 * (i.bounds.h / 2 * (i.bounds.h / 2 + 1) / 2 * i.bounds.w) < W32) :
    dvgravity2Load i = .ok (topMass i (toMiddle i) (triangle i) * 100 /
        spanSum i (toMiddle i) (triangle i)) ∧
      topMass i (toMiddle i) (triangle i) * 100 / spanSum i (toMiddle i) (triangle i) ≤ 100 := by
  have h1 := topMass_le i (toMiddle i) (triangle i)
  have h2 := bottomMass_le i (toMiddle i) (triangle i)
  have h3 := spanSum_mono i (toMiddle i) (triangle i)
  rw [spanSum_mid_whole] at h3
  have hp := spanSum_pos hw hh (toMiddle i) (by unfold toMiddle; omega)
  constructor
  · unfold dvgravity2Load
    rw [diagGravArea_mod wf hw (by omega), Nat.mod_eq_of_lt (by omega)]
    simp only [Res.ok_bind]
    rw [if_neg (by rw [umul_eq (by omega)]; omega), diagGravity_mod wf hw (by omega),
      Nat.mod_eq_of_lt (by omega), Nat.mod_eq_of_lt (by omega)]
    simp only [Res.ok_bind]
    exact percentDv_ok (t := ⟨_, _⟩) h1 h2 (by omega) hp
  · apply Nat.div_le_of_le_mul
    exact Nat.mul_le_mul_right _ h1

example : dvgravity2Load img35 = .ok 57 := by decide

/-- The size hypothesis of C15 is needed: a 1×(2^32−1) image makes `proportionality` divide by
zero. -/
theorem C15_division_by_zero (d : List Pixel) : proportionalityLoad ⟨⟨1, 4294967295⟩, d⟩ = .ub := by
  have h1 : uadd 1 4294967295 = 0 := by decide
  unfold proportionalityLoad udiv
  simp only [h1, if_true]

/-- **C19.** `hbar` is the number of maximal blocks of full rows, for every image. -/
theorem C19_hbar (i : Image) (wf : i.WF) (hw : 0 < i.bounds.w) :
    hbarLoad i = .ok (fullBlocks i) := by
  unfold hbarLoad
  rw [area_eq wf, Nat.mul_comm]
  have := hbarLoop_ok wf hw i.bounds.h (i.bounds.h * i.bounds.w + 1) 0 0 (fuel_lt hw) (by omega)
    (by have := wf.h_lt; omega)
  rw [Nat.zero_mul, Nat.zero_add] at this
  simp only [ne_eq, not_true_eq_false, decide_false, Bool.false_and] at this
  rw [this, fullBlocks, List.range_eq_range']
  rfl

example : hbarLoad ⟨⟨2, 5⟩, [120, 120, 120, 120, 120, 45, 120, 120, 45, 120]⟩ = .ok 2 := by decide
example : fullBlocks ⟨⟨2, 5⟩, [120, 120, 120, 120, 120, 45, 120, 120, 45, 120]⟩ = 2 := by decide

/-- An image without columns has no bar. -/
theorem C19_no_columns (i : Image) (hw : i.bounds.w = 0) : hbarLoad i = .ok 0 := by
  unfold hbarLoad
  have : i.bounds.area = 0 := by simp [Bounds.area, umul, hw]
  rw [this]
  rfl

end Ppocr.Props

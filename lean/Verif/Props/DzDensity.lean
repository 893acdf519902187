import Verif.Proofs.DzDensity
import Verif.Props.Features

/-! # C15 (dzdensity) and C18: the diagonal band -/

namespace Ppocr.Props
open Ppocr Spec

/-- **C18**: for every image of at least 3×3 (and small enough for `int`), the value is the percentage
of letter pixels among the cells of the diagonal band; the band is not empty; the value is at most 100.
In particular no row span is inverted and nothing outside the rows is read. -/
theorem C18_value (i : Image) (wf : i.WF) (hw : 3 ≤ i.bounds.w) (hh : 3 ≤ i.bounds.h)
    (hsz : 100 * (i.bounds.w * i.bounds.h) < 2147483648) :
    0 < bandArea i ∧ dzdensityLoad i = .ok (100 * bandMass i / bandArea i) ∧
      100 * bandMass i / bandArea i ≤ 100 := by
  have hp := bandArea_pos hw hh
  have hm := bandMass_le i
  have ha := bandArea_le i
  have h1 : i.bounds.w * 3 ≤ i.bounds.w * i.bounds.h := Nat.mul_le_mul_left _ hh
  have h2 : 3 * i.bounds.h ≤ i.bounds.w * i.bounds.h := Nat.mul_le_mul_right _ hw
  refine ⟨hp, ?_, ?_⟩
  · have hl := dzLoop_ok wf hw hh hsz i.bounds.h 0 0 0 (by omega) (by rw [Nat.mul_comm]; omega)
      (by rw [Nat.mul_comm]; omega)
    rw [← sumTo_eq, ← sumTo_eq, ← bandArea_eq, ← bandMass_eq] at hl
    simp only [Nat.mul_zero, Nat.zero_mul, Nat.zero_add, Int.natCast_zero] at hl
    unfold dzdensityLoad
    rw [if_neg (by omega), area_eq wf, umul_eq (by simp only [W32]; omega),
      umul_eq (by simp only [W32]; omega), toI32_eq (by omega), toI32_eq (by omega),
      toI32_eq (by omega), toI32_eq (by omega), Nat.mul_comm i.bounds.h 3, Nat.mul_comm i.bounds.w 3,
      hl]
    simp only [Res.ok_bind]
    rw [si_eq (by omega) (by omega)]
    simp only [Res.ok_bind]
    rw [if_neg (by omega), Res.pure_eq]
    rw [show ((bandMass i : Nat) : Int) * 100 = ((100 * bandMass i : Nat) : Int) by omega,
      ← Int.ofNat_tdiv, Int.toNat_natCast]
  · apply Nat.div_le_of_le_mul
    rw [Nat.mul_comm _ 100]
    omega

example : bandMass img35 = 2 ∧ bandArea img35 = 3 ∧ dzdensityLoad img35 = .ok 66 := by decide

/-- **C18**: smaller images give 0. -/
theorem C18_small (i : Image) (h : i.bounds.w < 3 ∨ i.bounds.h < 3) : dzdensityLoad i = .ok 0 := by
  unfold dzdensityLoad
  rw [if_pos h]

example : dzdensityLoad ⟨⟨2, 2⟩, [120, 120, 120, 120]⟩ = .ok 0 := by decide

/-- **C18**: turning the image by 180 degrees does not change the value. -/
theorem C18_half_turn (i r : Image) (wi : i.WF) (wr : r.WF) (ht : HalfTurn i r)
    (hsz : 100 * (i.bounds.w * i.bounds.h) < 2147483648) : dzdensityLoad r = dzdensityLoad i := by
  have hb := ht.bounds
  by_cases hs : i.bounds.w < 3 ∨ i.bounds.h < 3
  · rw [C18_small i hs, C18_small r (by rw [hb]; exact hs)]
  · obtain ⟨_, h1, _⟩ := C18_value i wi (by omega) (by omega) hsz
    obtain ⟨_, h2, _⟩ := C18_value r wr (by rw [hb]; omega) (by rw [hb]; omega) (by rw [hb]; exact hsz)
    have ha : bandArea r = bandArea i := by unfold bandArea; rw [hb]
    rw [h1, h2, ha, bandMass_turn ht]

example : dzdensityLoad ⟨⟨3, 3⟩, [120, 120, 45, 45, 120, 45, 45, 45, 45]⟩ = .ok 66 ∧
    dzdensityLoad ⟨⟨3, 3⟩, [45, 45, 45, 45, 120, 45, 45, 120, 120]⟩ = .ok 66 := by decide

/-- **C15, dzdensity**: the value is a percentage for every non-empty image. -/
theorem C15_dzdensity (i : Image) (wf : i.WF) (hsz : 100 * (i.bounds.w * i.bounds.h) < 2147483648) :
    ∃ v, dzdensityLoad i = .ok v ∧ v ≤ 100 := by
  by_cases hs : i.bounds.w < 3 ∨ i.bounds.h < 3
  · exact ⟨0, C18_small i hs, by omega⟩
  · obtain ⟨_, h1, h2⟩ := C18_value i wf (by omega) (by omega) hsz
    exact ⟨_, h1, h2⟩

/-- A size hypothesis is needed: on any 65536×32768 image `int(img.area())` is negative and
`w3 + yp - area` overflows `int` in the first row. -/
theorem C18_overflow (d : List Pixel) : dzdensityLoad ⟨⟨65536, 32768⟩, d⟩ = .ub := by
  have e0 : dzSpan 65536 (-2147483648) 98304 196608 0 = .ub := by decide
  have e1 : toI32 (Bounds.area ⟨65536, 32768⟩) = -2147483648 := by decide
  have e2 : toI32 (umul 32768 3) = 98304 := by decide
  have e3 : toI32 (umul 65536 3) = 196608 := by decide
  have e4 : toI32 65536 = 65536 := by decide
  unfold dzdensityLoad
  rw [if_neg (by show ¬((65536 : Nat) < 3 ∨ (32768 : Nat) < 3); decide)]
  simp only [e1, e2, e3, e4]
  rw [show (32768 : Nat) = 32767 + 1 from rfl, dzLoop, e0]
  simp only [Res.ub_bind]

end Ppocr.Props

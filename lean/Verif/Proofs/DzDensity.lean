import Verif.Proofs.Features
import Verif.Spec.DzDensity

namespace Ppocr
open Spec

/-- Counting in a sub-range of the columns. -/
theorem countP_span {w a b : Nat} (hab : a ≤ b) (hb : b ≤ w) (p q : Nat → Bool)
    (hq : ∀ x, x < w → q x = (decide (a ≤ x) && decide (x < b) && p x)) :
    (List.range w).countP q = (List.range' a (b - a)).countP p := by
  have e1 : List.range w = List.range' 0 a ++ (List.range' a (b - a) ++ List.range' b (w - b)) := by
    have h1 := List.range'_append_1 (s := a) (m := b - a) (n := w - b)
    have h2 := List.range'_append_1 (s := 0) (m := a) (n := w - a)
    rw [show a + (b - a) = b by omega, show b - a + (w - b) = w - a by omega] at h1
    rw [Nat.zero_add, show a + (w - a) = w by omega] at h2
    rw [h1, h2, List.range_eq_range']
  rw [e1, List.countP_append, List.countP_append]
  have z1 : List.countP q (List.range' 0 a) = 0 := by
    rw [List.countP_eq_zero]
    intro x hx
    rw [List.mem_range'_1] at hx
    rw [hq x (by omega)]
    simp; omega
  have z2 : List.countP q (List.range' b (w - b)) = 0 := by
    rw [List.countP_eq_zero]
    intro x hx
    rw [List.mem_range'_1] at hx
    rw [hq x (by omega)]
    simp; omega
  have z3 : List.countP q (List.range' a (b - a)) = List.countP p (List.range' a (b - a)) := by
    apply List.countP_congr
    intro x hx
    rw [List.mem_range'_1] at hx
    rw [hq x (by omega)]
    simp; omega
  rw [z1, z2, z3]
  omega

/-- First column of the band in row `y`. -/
def bandLo (w h y : Nat) : Nat := (3 * (w * y) + 3 * w + 3 * h - 1 - w * h) / (3 * h)
/-- One past the last column of the band in row `y`. -/
def bandHi (w h y : Nat) : Nat := min w ((3 * (w * y) + w * h) / (3 * h))

theorem band_iff {w h x y : Nat} (hh : 0 < h) (hx : x < w) :
    Band w h x y = (decide (bandLo w h y ≤ x) && decide (x < bandHi w h y)) := by
  unfold Band bandLo bandHi
  have e1 : decide (3 * (w * (y + 1)) ≤ 3 * (h * x) + w * h) =
      decide ((3 * (w * y) + 3 * w + 3 * h - 1 - w * h) / (3 * h) ≤ x) := by
    apply decide_eq_decide.2
    rw [← Nat.not_lt, ← Nat.not_lt]
    apply not_congr
    rw [show x < (3 * (w * y) + 3 * w + 3 * h - 1 - w * h) / (3 * h) ↔
      x + 1 ≤ (3 * (w * y) + 3 * w + 3 * h - 1 - w * h) / (3 * h) from Iff.rfl]
    rw [Nat.le_div_iff_mul_le (by omega)]
    have e2 : (x + 1) * (3 * h) = 3 * (h * x) + 3 * h := by
      rw [Nat.add_mul, Nat.one_mul, Nat.mul_left_comm, Nat.mul_comm x h]
    have e3 : w * (y + 1) = w * y + w := by rw [Nat.mul_add, Nat.mul_one]
    rw [e2, e3]
    omega
  have e2 : decide (3 * (h * (x + 1)) ≤ 3 * (w * y) + w * h) =
      decide (x < min w ((3 * (w * y) + w * h) / (3 * h))) := by
    apply decide_eq_decide.2
    rw [Nat.lt_min]
    rw [show x < (3 * (w * y) + w * h) / (3 * h) ↔
      x + 1 ≤ (3 * (w * y) + w * h) / (3 * h) from Iff.rfl]
    rw [Nat.le_div_iff_mul_le (by omega)]
    have e2 : (x + 1) * (3 * h) = 3 * (h * (x + 1)) := by
      rw [Nat.mul_comm, Nat.mul_assoc]
    rw [e2]
    omega
  rw [e1, e2]

theorem band_bounds {w h y : Nat} (hw : 3 ≤ w) (hh : 3 ≤ h) (hy : y < h) :
    bandLo w h y ≤ bandHi w h y ∧ bandHi w h y ≤ w := by
  have h1 : w * 3 ≤ w * h := Nat.mul_le_mul_left _ hh
  have h2 : 3 * h ≤ w * h := Nat.mul_le_mul_right _ hw
  have h3 : w * (y + 1) ≤ w * h := Nat.mul_le_mul_left _ hy
  rw [Nat.mul_add, Nat.mul_one] at h3
  unfold bandLo bandHi
  refine ⟨?_, Nat.min_le_left _ _⟩
  rw [Nat.le_min]
  constructor
  · rw [← Nat.lt_succ_iff, Nat.div_lt_iff_lt_mul (by omega)]
    have : (w + 1) * (3 * h) = 3 * (w * h) + 3 * h := by
      rw [Nat.add_mul, Nat.one_mul, Nat.mul_left_comm]
    rw [Nat.succ_eq_add_one, this]
    omega
  · apply Nat.div_le_div_right
    omega

/-- The integer computation of the span. -/
theorem dzSpan_ok {w h y : Nat} (hw : 3 ≤ w) (hh : 3 ≤ h) (hy : y < h)
    (hsz : 100 * (w * h) < 2147483648) :
    dzSpan (w : Int) ((w * h : Nat) : Int) ((3 * h : Nat) : Int) ((3 * w : Nat) : Int)
      ((3 * (w * y) : Nat) : Int) = .ok ((bandLo w h y : Nat), (bandHi w h y : Nat)) := by
  have h1 : w * 3 ≤ w * h := Nat.mul_le_mul_left _ hh
  have h2 : 3 * h ≤ w * h := Nat.mul_le_mul_right _ hw
  have h3 : w * (y + 1) ≤ w * h := Nat.mul_le_mul_left _ hy
  rw [Nat.mul_add, Nat.mul_one] at h3
  have h3h : ((3 * h : Nat) : Int) ≠ 0 := by omega
  obtain ⟨q2, hq2d⟩ : ∃ q, (3 * (w * y) + w * h) / (3 * h) = q := ⟨_, rfl⟩
  have hq2 : Int.tdiv ((3 * (w * y) : Nat) + (w * h : Nat) : Int) ((3 * h : Nat) : Int) = (q2 : Int) := by
    rw [← Int.natCast_add, ← Int.ofNat_tdiv, hq2d]
  have hq2le : q2 ≤ 3 * (w * y) + w * h := by rw [← hq2d]; exact Nat.div_le_self _ _
  unfold dzSpan
  rw [si_eq (by omega) (by omega)]
  simp only [Res.ok_bind]
  rw [si_eq (by omega) (by omega)]
  simp only [Res.ok_bind]
  rw [si_eq (by omega) (by omega)]
  simp only [Res.ok_bind]
  rw [si_eq (by omega) (by omega)]
  simp only [Res.ok_bind]
  rw [if_neg h3h]
  by_cases hneg : w * h ≤ 3 * (w * y) + 3 * w + 3 * h - 1
  · have e : (((3 * w : Nat) : Int) + (3 * (w * y) : Nat) - (w * h : Nat) + (3 * h : Nat) - 1) =
        ((3 * (w * y) + 3 * w + 3 * h - 1 - w * h : Nat) : Int) := by omega
    obtain ⟨q1, hq1d⟩ : ∃ q, (3 * (w * y) + 3 * w + 3 * h - 1 - w * h) / (3 * h) = q := ⟨_, rfl⟩
    have hq1le : q1 ≤ 3 * (w * y) + 3 * w + 3 * h - 1 - w * h := by
      rw [← hq1d]; exact Nat.div_le_self _ _
    rw [e, ← Int.ofNat_tdiv, hq1d]
    rw [si_eq (by omega) (by omega)]
    simp only [Res.ok_bind]
    rw [si_eq (v := ((3 * (w * y) : Nat) : Int) + (w * h : Nat)) (by omega) (by omega)]
    simp only [Res.ok_bind]
    rw [hq2, si_eq (by omega) (by omega)]
    simp only [Res.ok_bind, Res.pure_eq, bandLo, bandHi, hq1d, hq2d]
    rw [show max (0 : Int) (q1 : Int) = (q1 : Int) by omega,
      show min ((w : Nat) : Int) (q2 : Int) = ((min w q2 : Nat) : Int) by omega]
  · have e : (((3 * w : Nat) : Int) + (3 * (w * y) : Nat) - (w * h : Nat) + (3 * h : Nat) - 1) =
        -((w * h - (3 * (w * y) + 3 * w + 3 * h - 1) : Nat) : Int) := by omega
    obtain ⟨q1, hq1d⟩ : ∃ q, (w * h - (3 * (w * y) + 3 * w + 3 * h - 1)) / (3 * h) = q := ⟨_, rfl⟩
    have hq1le : q1 ≤ w * h - (3 * (w * y) + 3 * w + 3 * h - 1) := by
      rw [← hq1d]; exact Nat.div_le_self _ _
    have hlo : bandLo w h y = 0 := by
      unfold bandLo
      rw [show 3 * (w * y) + 3 * w + 3 * h - 1 - w * h = 0 by omega, Nat.zero_div]
    rw [e, Int.neg_tdiv, ← Int.ofNat_tdiv, hq1d]
    rw [si_eq (by omega) (by omega)]
    simp only [Res.ok_bind]
    rw [si_eq (v := ((3 * (w * y) : Nat) : Int) + (w * h : Nat)) (by omega) (by omega)]
    simp only [Res.ok_bind]
    rw [hq2, si_eq (by omega) (by omega)]
    simp only [Res.ok_bind, Res.pure_eq, hlo, bandHi, hq2d]
    rw [show max (0 : Int) (-(q1 : Int)) = ((0 : Nat) : Int) by omega,
      show min ((w : Nat) : Int) (q2 : Int) = ((min w q2 : Nat) : Int) by omega]

/-- Band cells of row `y`. -/
def rowBand (i : Image) (y : Nat) : Nat :=
  (List.range i.bounds.w).countP fun x => Band i.bounds.w i.bounds.h x y
/-- Band letters of row `y`. -/
def rowBandMass (i : Image) (y : Nat) : Nat :=
  (List.range i.bounds.w).countP fun x => Band i.bounds.w i.bounds.h x y && letter i x y

theorem rowBand_eq {i : Image} (hw : 3 ≤ i.bounds.w) (hh : 3 ≤ i.bounds.h) {y : Nat}
    (hy : y < i.bounds.h) : rowBand i y =
      bandHi i.bounds.w i.bounds.h y - bandLo i.bounds.w i.bounds.h y := by
  obtain ⟨h1, h2⟩ := band_bounds hw hh hy
  unfold rowBand
  rw [countP_span h1 h2 (fun _ => true)]
  · rw [List.countP_eq_length.2 (by simp)]
    simp
  · intro x hx
    rw [band_iff (by omega) hx]
    simp

theorem rowBandMass_eq {i : Image} (hw : 3 ≤ i.bounds.w) (hh : 3 ≤ i.bounds.h) {y : Nat}
    (hy : y < i.bounds.h) : rowBandMass i y =
      rowMass i y (bandLo i.bounds.w i.bounds.h y) (bandHi i.bounds.w i.bounds.h y) := by
  obtain ⟨h1, h2⟩ := band_bounds hw hh hy
  unfold rowBandMass rowMass
  rw [countP_span h1 h2 (fun x => letter i x y)]
  intro x hx
  rw [band_iff (by omega) hx]

theorem rowBand_le (i : Image) (y : Nat) : rowBand i y ≤ i.bounds.w := by
  have := List.countP_le_length (p := fun x => Band i.bounds.w i.bounds.h x y)
    (l := List.range i.bounds.w)
  simpa [rowBand] using this

theorem rowBandMass_le (i : Image) (y : Nat) : rowBandMass i y ≤ rowBand i y := by
  apply List.countP_mono_left
  intro x _ h
  rw [Bool.and_eq_true] at h
  exact h.1

theorem dzLoop_ok {i : Image} (wf : i.WF) (hw : 3 ≤ i.bounds.w) (hh : 3 ≤ i.bounds.h)
    (hsz : 100 * (i.bounds.w * i.bounds.h) < 2147483648) (m : Nat) :
    ∀ (y res ar : Nat), y + m = i.bounds.h → res + m * i.bounds.w ≤ i.bounds.w * i.bounds.h →
    ar + m * i.bounds.w ≤ i.bounds.w * i.bounds.h →
    dzLoop i i.bounds.w ((i.bounds.w * i.bounds.h : Nat) : Int) ((3 * i.bounds.h : Nat) : Int)
      ((3 * i.bounds.w : Nat) : Int) m ((3 * (i.bounds.w * y) : Nat) : Int) (y * i.bounds.w) res ar =
      .ok (((res + sumFrom y m (rowBandMass i) : Nat) : Int), ((ar + sumFrom y m (rowBand i) : Nat) : Int)) := by
  induction m with
  | zero => intro y res ar _ _ _; simp [dzLoop, sumFrom]
  | succ m IH =>
    intro y res ar hy hr ha
    have hyh : y < i.bounds.h := by omega
    obtain ⟨h1, h2⟩ := band_bounds hw hh hyh
    have h3 : i.bounds.w * (y + 1) ≤ i.bounds.w * i.bounds.h := Nat.mul_le_mul_left _ hyh
    rw [Nat.mul_add, Nat.mul_one] at h3
    rw [Nat.add_mul, Nat.one_mul] at hr ha
    have hb1 := rowBand_le i y
    have hb2 := rowBandMass_le i y
    have eb := rowBand_eq hw hh hyh
    have em := rowBandMass_eq hw hh hyh
    unfold dzLoop
    rw [dzSpan_ok hw hh hyh hsz]
    simp only [Res.ok_bind]
    rw [show max (0 : Int) ((bandLo i.bounds.w i.bounds.h y : Nat) : Int) =
      ((bandLo i.bounds.w i.bounds.h y : Nat) : Int) by omega]
    rw [show min ((i.bounds.w : Nat) : Int) ((bandHi i.bounds.w i.bounds.h y : Nat) : Int) =
      ((bandHi i.bounds.w i.bounds.h y : Nat) : Int) by omega]
    have hc : dzCount i.data (y * i.bounds.w) (bandLo i.bounds.w i.bounds.h y : Nat)
        (bandHi i.bounds.w i.bounds.h y : Nat) = .ok (rowBandMass i y) := by
      unfold dzCount
      rw [if_neg (by omega)]
      simp only [Int.toNat_natCast]
      rw [scanLetters_row wf hyh 1 h1 h2 W32_pos rfl rfl, ← em]
      have hws := wf.w_lt
      rw [Nat.zero_add, Nat.one_mul, Nat.mod_eq_of_lt (by omega)]
    rw [hc]
    simp only [Res.ok_bind]
    rw [si_eq (by omega) (by omega)]
    simp only [Res.ok_bind]
    rw [si_eq (by omega) (by omega)]
    simp only [Res.ok_bind]
    rw [si_eq (by omega) (by omega)]
    simp only [Res.ok_bind]
    rw [si_eq (by omega) (by omega)]
    simp only [Res.ok_bind]
    rw [show y * i.bounds.w + i.bounds.w = (y + 1) * i.bounds.w by rw [Nat.add_mul]; omega]
    rw [show ((3 * (i.bounds.w * y) : Nat) : Int) + ((3 * i.bounds.w : Nat) : Int) =
      ((3 * (i.bounds.w * (y + 1)) : Nat) : Int) by
        rw [Nat.mul_add i.bounds.w]; omega]
    rw [show ((res : Nat) : Int) + ((rowBandMass i y : Nat) : Int) = ((res + rowBandMass i y : Nat) : Int)
      by omega]
    rw [show ((ar : Nat) : Int) + (((bandHi i.bounds.w i.bounds.h y : Nat) : Int) -
      ((bandLo i.bounds.w i.bounds.h y : Nat) : Int)) = ((ar + rowBand i y : Nat) : Int) by omega]
    rw [IH (y + 1) _ _ (by omega) (by omega) (by omega), sumFrom_succ, sumFrom_succ,
      Nat.add_assoc, Nat.add_assoc]

theorem bandArea_eq (i : Image) : bandArea i = sumTo i.bounds.h (rowBand i) := rfl
theorem bandMass_eq (i : Image) : bandMass i = sumTo i.bounds.h (rowBandMass i) := rfl

theorem bandMass_le (i : Image) : bandMass i ≤ bandArea i :=
  sumTo_le fun k _ => rowBandMass_le i k

theorem bandArea_le (i : Image) : bandArea i ≤ i.bounds.w * i.bounds.h := by
  have : bandArea i ≤ sumTo i.bounds.h fun _ => i.bounds.w := sumTo_le fun k _ => rowBand_le i k
  rw [sumTo_const, Nat.mul_comm] at this
  exact this

theorem bandArea_pos {i : Image} (hw : 3 ≤ i.bounds.w) (hh : 3 ≤ i.bounds.h) : 0 < bandArea i := by
  obtain ⟨n, hn⟩ : ∃ n, i.bounds.h = n + 1 := ⟨i.bounds.h - 1, by omega⟩
  rw [bandArea_eq]
  conv => { rhs; rw [hn] }
  rw [sumTo_first]
  have h1 : i.bounds.w * 3 ≤ i.bounds.w * i.bounds.h := Nat.mul_le_mul_left _ hh
  have h2 : 3 * i.bounds.h ≤ i.bounds.w * i.bounds.h := Nat.mul_le_mul_right _ hw
  have : 0 < rowBand i 0 := by
    unfold rowBand
    rw [List.countP_pos_iff]
    refine ⟨0, by simp; omega, ?_⟩
    unfold Band
    simp only [Nat.zero_add, Nat.mul_one, Nat.mul_zero, Bool.and_eq_true, decide_eq_true_eq]
    omega
  omega

/-- The band is invariant under the half turn. -/
theorem band_turn {w h x y : Nat} (hx : x < w) (hy : y < h) :
    Band w h (w - 1 - x) (h - 1 - y) = Band w h x y := by
  obtain ⟨a, rfl⟩ : ∃ a, w = x + 1 + a := ⟨w - 1 - x, by omega⟩
  obtain ⟨b, rfl⟩ : ∃ b, h = y + 1 + b := ⟨h - 1 - y, by omega⟩
  unfold Band
  rw [show x + 1 + a - 1 - x = a by omega, show y + 1 + b - 1 - y = b by omega, Bool.and_comm]
  have e1 : (y + 1 + b) * (x + 1 + a) = (y + 1 + b) * (x + 1) + (y + 1 + b) * a := Nat.mul_add _ _ _
  have e2 : (x + 1 + a) * (y + 1 + b) = (x + 1 + a) * (y + 1) + (x + 1 + a) * b := Nat.mul_add _ _ _
  have e3 : (y + 1 + b) * (x + 1 + a) = (x + 1 + a) * (y + 1 + b) := Nat.mul_comm _ _
  have e4 : (y + 1 + b) * (x + 1) = (y + 1 + b) * x + (y + 1 + b) := by rw [Nat.mul_add, Nat.mul_one]
  have e5 : (x + 1 + a) * (y + 1) = (x + 1 + a) * y + (x + 1 + a) := by rw [Nat.mul_add, Nat.mul_one]
  have e6 : (y + 1 + b) * (a + 1) = (y + 1 + b) * a + (y + 1 + b) := by rw [Nat.mul_add, Nat.mul_one]
  have e7 : (x + 1 + a) * (b + 1) = (x + 1 + a) * b + (x + 1 + a) := by rw [Nat.mul_add, Nat.mul_one]
  congr 1
  · apply decide_eq_decide.2
    omega
  · apply decide_eq_decide.2
    omega

theorem countP_rev (n : Nat) (p : Nat → Bool) :
    (List.range n).countP (fun x => p (n - 1 - x)) = (List.range n).countP p := by
  have h : ∀ (f : Nat → Bool), (List.range n).countP f = sumTo n fun x => if f x then 1 else 0 := by
    intro f
    induction n with
    | zero => rfl
    | succ n ih =>
      rw [List.range_succ, List.countP_append, ih, sumTo_last]
      simp [List.countP_cons]
  rw [h, h, sumTo_eq n fun x => if p x then 1 else 0, sumFrom_rev]
  apply sumTo_congr
  intro k hk
  simp

theorem sumTo_rev (n : Nat) (f : Nat → Nat) : sumTo n f = sumTo n fun k => f (n - 1 - k) := by
  conv => { lhs; rw [sumTo_eq, sumFrom_rev] }
  simp

theorem bandMass_turn {i r : Image} (h : HalfTurn i r) : bandMass r = bandMass i := by
  unfold bandMass
  rw [h.bounds, sumTo_rev]
  apply sumTo_congr
  intro k hk
  rw [← countP_rev]
  apply List.countP_congr
  intro x hx
  rw [List.mem_range] at hx
  rw [band_turn hx hk]
  have hp := h.cells (i.bounds.w - 1 - x) (i.bounds.h - 1 - k) (by omega) (by omega)
  rw [show i.bounds.w - 1 - (i.bounds.w - 1 - x) = x by omega,
    show i.bounds.h - 1 - (i.bounds.h - 1 - k) = k by omega] at hp
  have hl : letter r (i.bounds.w - 1 - x) (i.bounds.h - 1 - k) = letter i x k := by
    unfold letter
    rw [hp]
  rw [hl]

end Ppocr

import Verif.Model.Double
import Verif.Proofs.Letter8

/-! # Helper lemmas: IEEE numbers in `extract_text8` -/

namespace Ppocr

set_option exponentiation.threshold 2000

/-- The greatest number less than 1. -/
def below1 : Nat := (2 ^ 53 - 1) * 2 ^ 1021

theorem le_below1 {n : Nat} (h : Digits53 n) (h1 : n < unit1) : n ≤ below1 := by
  obtain ⟨m, k, hm, rfl⟩ := h
  have hu : unit1 = 2 ^ 53 * 2 ^ 1021 := by unfold unit1; rw [← Nat.pow_add]
  rcases Nat.lt_or_ge k 1021 with hk | hk
  · calc m * 2 ^ k ≤ (2 ^ 53 - 1) * 2 ^ k := Nat.mul_le_mul_right _ (by omega)
      _ ≤ below1 := Nat.mul_le_mul_left _ (Nat.pow_le_pow_right (by omega) (by omega))
  · have e : m * 2 ^ k = (m * 2 ^ (k - 1021)) * 2 ^ 1021 := by
      rw [Nat.mul_assoc, ← Nat.pow_add]; congr 2; omega
    rw [e, hu] at h1
    rw [e]
    have := Nat.lt_of_mul_lt_mul_right h1
    exact Nat.mul_le_mul_right _ (by omega)

/-- 1 as a `double`, and the number below. -/
def Double.one : Double := ⟨unit1, digits_pow 1074⟩
def Double.below : Double := ⟨below1, ⟨2 ^ 53 - 1, 1021, by omega, rfl⟩⟩

/-- `p * a / b`. -/
def Double.scale (p : Double) (a b : Nat) : Double := (p.mul (Double.ofNat a)).div (Double.ofNat b)

theorem scale_mono {p q : Double} {a b : Nat} (h : p.n ≤ q.n) (hab : a ≤ b) : (p.scale a 100).n ≤ (q.scale b 100).n :=
  Double.div_mono (by omega) (by omega) (Double.mul_mono h (Double.ofNat_mono hab))

theorem scale_one_100 : (Double.one.scale 100 100).n = unit1 := by
  have h1 : ((Double.one.mul (Double.ofNat 100)).div (Double.ofNat 100)).n = ((Double.ofNat 100).div (Double.ofNat 100)).n := by
    rw [Double.div_n _ (by omega) (by omega), Double.div_n _ (by omega) (by omega), Double.one_mul _ _ rfl]
  exact h1.trans (Double.div_self (by omega) (by omega))

theorem scale_one_99 : (Double.one.scale 99 100).n < unit1 := by decide +kernel

/-- 100 percent of the greatest number less than 1 is less than 1. -/
theorem scale_below : (Double.below.scale 100 100).n < unit1 := by decide +kernel

/-- What is assumed of `double` in C91 holds of these numbers. -/
instance : LawfulProb8 Double where
  one := Double.one
  scale := Double.scale
  le := Double.le
  total a b h := by
    simp only [Double.le, decide_eq_false_iff_not, decide_eq_true_eq] at *
    omega
  trans a b c h1 h2 := by
    simp only [Double.le, decide_eq_true_eq] at *
    omega
  scale_le p a ha h := by
    simp only [Double.le, decide_eq_true_eq] at *
    have := scale_mono h ha
    rwa [scale_one_100] at this
  scale_cut p a ha h := by
    simp only [Double.le, decide_eq_true_eq, decide_eq_false_iff_not] at *
    have h1 := scale_mono h (show a ≤ 99 by omega)
    have h2 := scale_one_99
    show ¬ unit1 ≤ _
    omega
  scale_lt p a ha h := by
    simp only [Double.le, decide_eq_false_iff_not] at *
    have h1 := scale_mono (p := p) (q := Double.below) (le_below1 p.digits (Nat.lt_of_not_le h)) ha
    have h2 := scale_below
    show ¬ unit1 ≤ _
    omega
  scale_full p h := by
    simp only [Double.le, decide_eq_true_eq] at *
    have := scale_mono h (Nat.le_refl 100)
    rwa [scale_one_100] at this

end Ppocr

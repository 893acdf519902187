import Verif.Model.Std

/-!
# IEEE numbers in place of `double`

A non-negative `double` is a multiple of 2^-1074 with at most 53 significant binary digits. `*` and `/` give the nearest such number,
of two the one whose last digit is even. There is no greatest exponent here: the probabilities are at most 1, and at most 100
in between.
-/

namespace Ppocr

set_option exponentiation.threshold 2000

/-- At most 53 significant binary digits. -/
def Digits53 (n : Nat) : Prop := ∃ m k, m < 2 ^ 53 ∧ n = m * 2 ^ k

/-- The integer nearest to `num / u`, of two the even one. -/
def nearInt (num u : Nat) : Nat :=
  if 2 * (num % u) < u then num / u
  else if u < 2 * (num % u) then num / u + 1
  else if (num / u) % 2 = 0 then num / u
  else num / u + 1

/-- The number of binary digits beyond 53. -/
def beyond53 (q : Nat) : Nat := Nat.log2 q - 52

/-- The number with 53 significant binary digits that is nearest to `num / den`. -/
def round53 (num den : Nat) : Nat :=
  nearInt num (den * 2 ^ beyond53 (num / den)) * 2 ^ beyond53 (num / den)

theorem nearInt_mono {a b u : Nat} (h : a ≤ b) : nearInt a u ≤ nearInt b u := by
  rcases Nat.eq_zero_or_pos u with rfl | hu
  · simp only [nearInt, Nat.mod_zero, Nat.div_zero]
    repeat' split
    all_goals omega
  have hd : a / u ≤ b / u := Nat.div_le_div_right h
  have ea := Nat.div_add_mod a u
  have eb := Nat.div_add_mod b u
  rcases Nat.lt_or_ge (a / u) (b / u) with hlt | hge
  · unfold nearInt
    repeat' split
    all_goals omega
  · have he : a / u = b / u := Nat.le_antisymm hd hge
    rw [he] at ea
    unfold nearInt
    rw [he]
    repeat' split
    all_goals omega

theorem nearInt_mul (k : Nat) {u : Nat} (hu : 0 < u) : nearInt (k * u) u = k := by
  unfold nearInt
  rw [Nat.mul_mod_left, Nat.mul_div_cancel _ hu, if_pos (by omega)]

theorem nearInt_le {a u k : Nat} (hu : 0 < u) (h : a ≤ k * u) : nearInt a u ≤ k := by
  have := nearInt_mono (u := u) h
  rwa [nearInt_mul k hu] at this

theorem le_nearInt {a u k : Nat} (hu : 0 < u) (h : k * u ≤ a) : k ≤ nearInt a u := by
  have := nearInt_mono (u := u) h
  rwa [nearInt_mul k hu] at this

theorem beyond53_le {a b : Nat} (h : a ≤ b) : beyond53 a ≤ beyond53 b := by
  unfold beyond53
  rcases Nat.eq_zero_or_pos a with rfl | ha
  · simp
  have : a.log2 ≤ b.log2 := by
    rw [Nat.le_log2 (by omega)]
    exact Nat.le_trans (Nat.log2_self_le (by omega)) h
  omega

theorem lt_beyond53 (q : Nat) : q < 2 ^ (53 + beyond53 q) := by
  rcases Nat.eq_zero_or_pos q with rfl | hq
  · exact Nat.pow_pos (by omega)
  have h1 : q < 2 ^ (q.log2 + 1) := Nat.lt_log2_self
  have h2 : 2 ^ (q.log2 + 1) ≤ 2 ^ (53 + beyond53 q) := Nat.pow_le_pow_right (by omega) (by unfold beyond53; omega)
  omega

theorem beyond53_ge {q : Nat} (h : 0 < beyond53 q) : 2 ^ (52 + beyond53 q) ≤ q := by
  have h0 : q ≠ 0 := by rintro rfl; simp [beyond53] at h
  have h1 := Nat.log2_self_le h0
  rw [show 52 + beyond53 q = q.log2 by unfold beyond53 at *; omega]
  exact h1

theorem unit_pos {den : Nat} (h : 0 < den) (e : Nat) : 0 < den * 2 ^ e := Nat.mul_pos h (Nat.pow_pos (by omega))

/-- The nearest number is a number with 53 digits. -/
theorem digits_round53 (num : Nat) {den : Nat} (h : 0 < den) : Digits53 (round53 num den) := by
  unfold round53
  have hb := lt_beyond53 (num / den)
  have hn : nearInt num (den * 2 ^ beyond53 (num / den)) ≤ 2 ^ 53 := by
    apply nearInt_le (unit_pos h _)
    have : num < den * 2 ^ (53 + beyond53 (num / den)) := by
      rw [Nat.mul_comm]
      exact (Nat.div_lt_iff_lt_mul h).1 hb
    rw [Nat.pow_add] at this
    rw [Nat.mul_left_comm]
    omega
  rcases Nat.lt_or_ge (nearInt num (den * 2 ^ beyond53 (num / den))) (2 ^ 53) with hlt | hge
  · exact ⟨_, _, hlt, rfl⟩
  · refine ⟨1, 53 + beyond53 (num / den), by omega, ?_⟩
    rw [Nat.le_antisymm hn hge, Nat.pow_add]
    omega

/-- Rounding respects the order. -/
theorem round53_mono {a b den : Nat} (hden : 0 < den) (h : a ≤ b) : round53 a den ≤ round53 b den := by
  have hq : a / den ≤ b / den := Nat.div_le_div_right h
  have he := beyond53_le hq
  unfold round53
  rcases Nat.lt_or_ge (beyond53 (a / den)) (beyond53 (b / den)) with hlt | hge
  · have h1 : nearInt a (den * 2 ^ beyond53 (a / den)) * 2 ^ beyond53 (a / den) ≤ 2 ^ (52 + beyond53 (b / den)) := by
      have h2 : nearInt a (den * 2 ^ beyond53 (a / den)) ≤ 2 ^ 53 := by
        apply nearInt_le (unit_pos hden _)
        have : a < den * 2 ^ (53 + beyond53 (a / den)) := by
          rw [Nat.mul_comm]
          exact (Nat.div_lt_iff_lt_mul hden).1 (lt_beyond53 _)
        rw [Nat.pow_add] at this
        rw [Nat.mul_left_comm]
        omega
      calc nearInt a (den * 2 ^ beyond53 (a / den)) * 2 ^ beyond53 (a / den) ≤ 2 ^ 53 * 2 ^ beyond53 (a / den) := Nat.mul_le_mul_right _ h2
        _ = 2 ^ (53 + beyond53 (a / den)) := by rw [Nat.pow_add]
        _ ≤ _ := Nat.pow_le_pow_right (by omega) (by omega)
    have h2 : 2 ^ 52 ≤ nearInt b (den * 2 ^ beyond53 (b / den)) := by
      apply le_nearInt (unit_pos hden _)
      have := beyond53_ge (q := b / den) (by omega)
      rw [Nat.pow_add, Nat.le_div_iff_mul_le hden] at this
      rw [Nat.mul_comm den, ← Nat.mul_assoc]
      exact this
    calc _ ≤ 2 ^ (52 + beyond53 (b / den)) := h1
      _ = 2 ^ 52 * 2 ^ beyond53 (b / den) := by rw [Nat.pow_add]
      _ ≤ _ := Nat.mul_le_mul_right _ h2
  · rw [Nat.le_antisymm he hge]
    exact Nat.mul_le_mul_right _ (nearInt_mono h)

/-- What has 53 digits is not rounded. -/
theorem round53_exact {n den : Nat} (hden : 0 < den) (h : Digits53 n) : round53 (n * den) den = n := by
  obtain ⟨m, k, hm, rfl⟩ := h
  unfold round53
  rw [Nat.mul_div_cancel _ hden]
  generalize he : beyond53 (m * 2 ^ k) = e
  have hk : e ≤ k := by
    rcases Nat.lt_or_ge k e with hlt | hge
    · have h1 : 2 ^ (52 + e) ≤ m * 2 ^ k := by
        rw [← he]; exact beyond53_ge (by omega)
      have h2 : m * 2 ^ k < 2 ^ 53 * 2 ^ k := Nat.mul_lt_mul_of_pos_right hm (Nat.pow_pos (by omega))
      rw [← Nat.pow_add] at h2
      have h3 : 2 ^ (53 + k) ≤ 2 ^ (52 + e) := Nat.pow_le_pow_right (by omega) (by omega)
      omega
    · exact hge
  have e1 : m * 2 ^ k * den = (m * 2 ^ (k - e)) * (den * 2 ^ e) := by
    rw [show 2 ^ k = 2 ^ (k - e) * 2 ^ e by rw [← Nat.pow_add]; congr 1; omega]
    ac_rfl
  rw [e1, nearInt_mul _ (unit_pos hden e), Nat.mul_assoc, ← Nat.pow_add]
  congr 2
  omega

/-- A `double`: `n` times 2^-1074. -/
structure Double where
  n : Nat
  digits : Digits53 n

/-- The number of units of 1. -/
def unit1 : Nat := 2 ^ 1074

theorem unit1_pos : 0 < unit1 := Nat.pow_pos (by omega)

theorem digits_pow (k : Nat) : Digits53 (2 ^ k) := ⟨1, k, by omega, by omega⟩

/-- An integer as a `double`. -/
def Double.ofNat (n : Nat) : Double := ⟨round53 (n * unit1) 1, digits_round53 _ (by omega)⟩

/-- `a * b`. -/
def Double.mul (a b : Double) : Double := ⟨round53 (a.n * b.n) unit1, digits_round53 _ unit1_pos⟩

/-- `a / b`; a division by 0 is a division by 1 here. -/
def Double.div (a b : Double) : Double :=
  if h : 0 < b.n then ⟨round53 (a.n * unit1) b.n, digits_round53 _ h⟩ else a

/-- `a <= b`. -/
def Double.le (a b : Double) : Bool := decide (a.n ≤ b.n)

theorem digits_small {c : Nat} (h : c < 2 ^ 53) : Digits53 (c * unit1) := ⟨c, 1074, h, rfl⟩

theorem ofNat_small {c : Nat} (h : c < 2 ^ 53) : (Double.ofNat c).n = c * unit1 := by
  have := round53_exact (den := 1) (by omega) (digits_small h)
  rwa [Nat.mul_one] at this

theorem Double.ofNat_mono {c b : Nat} (h : c ≤ b) : (Double.ofNat c).n ≤ (Double.ofNat b).n :=
  round53_mono (by omega) (Nat.mul_le_mul_right _ h)

theorem Double.mul_mono {a b c d : Double} (h1 : a.n ≤ b.n) (h2 : c.n ≤ d.n) : (a.mul c).n ≤ (b.mul d).n :=
  round53_mono unit1_pos (Nat.mul_le_mul h1 h2)

theorem Double.mul_one (a b : Double) (hb : b.n = unit1) : (a.mul b).n = a.n := by
  show round53 (a.n * b.n) unit1 = a.n
  rw [hb, round53_exact unit1_pos a.digits]

theorem Double.one_mul (a b : Double) (hb : b.n = unit1) : (b.mul a).n = a.n := by
  show round53 (b.n * a.n) unit1 = a.n
  rw [hb, Nat.mul_comm, round53_exact unit1_pos a.digits]

theorem Double.div_n (a : Double) {c : Nat} (h0 : 0 < c) (h : c < 2 ^ 53) :
    (a.div (Double.ofNat c)).n = round53 (a.n * unit1) (c * unit1) := by
  have e := ofNat_small h
  have hp : 0 < (Double.ofNat c).n := by rw [e]; exact Nat.mul_pos h0 unit1_pos
  unfold Double.div
  rw [dif_pos hp, ← e]

theorem Double.div_mono {a b : Double} {c : Nat} (h0 : 0 < c) (hc : c < 2 ^ 53) (h : a.n ≤ b.n) :
    (a.div (Double.ofNat c)).n ≤ (b.div (Double.ofNat c)).n := by
  rw [a.div_n h0 hc, b.div_n h0 hc]
  exact round53_mono (Nat.mul_pos h0 unit1_pos) (Nat.mul_le_mul_right _ h)

theorem Double.div_self {c : Nat} (h0 : 0 < c) (hc : c < 2 ^ 53) : ((Double.ofNat c).div (Double.ofNat c)).n = unit1 := by
  rw [Double.div_n _ h0 hc, ofNat_small hc, Nat.mul_comm]
  exact round53_exact (Nat.mul_pos h0 unit1_pos) (digits_pow 1074)

/-- `c / 100.` -/
def Double.ofPct (c : Nat) : Double := (Double.ofNat c).div (Double.ofNat 100)

theorem ofPct_100 : (Double.ofPct 100).n = unit1 := Double.div_self (by omega) (by omega)

theorem ofPct_mono {b c : Nat} (h : c ≤ b) : (Double.ofPct c).n ≤ (Double.ofPct b).n :=
  Double.div_mono (by omega) (by omega) (Double.ofNat_mono h)

theorem ofPct_le {c : Nat} (h : c ≤ 100) : (Double.ofPct c).n ≤ unit1 := by
  have := ofPct_mono h
  rwa [ofPct_100] at this

/-- All hundred steps of `c / 100.` -/
theorem ofPct_steps : ∀ c < 100, (Double.ofPct c).n < (Double.ofPct (c + 1)).n := by decide +kernel

/-- What is assumed of `double` in C60, C61 and C72 holds of these numbers. -/
instance : MonoDbl Double where
  mul := Double.mul
  le := Double.le
  ofPct := Double.ofPct
  total a b h := by
    simp only [Double.le, decide_eq_false_iff_not, decide_eq_true_eq] at *
    omega
  trans a b c h1 h2 := by
    simp only [Double.le, decide_eq_true_eq] at *
    omega
  half_le a := by
    simp only [Double.le, decide_eq_true_eq]
    have := Double.mul_mono (Nat.le_refl a.n) (Nat.le_trans (ofPct_le (c := 50) (by omega)) (Nat.le_of_eq ofPct_100.symm))
    rwa [Double.mul_one a _ ofPct_100] at this
  one_le_mul a b h1 h2 := by
    simp only [Double.le, decide_eq_true_eq] at *
    have := Double.mul_mono h1 h2
    rwa [Double.mul_one _ _ ofPct_100] at this
  mul_le a c h := by
    simp only [Double.le, decide_eq_true_eq]
    have := Double.mul_mono (Nat.le_refl a.n) (ofPct_mono h)
    rwa [Double.mul_one a _ ofPct_100] at this
  mul_le_pct a c h hc := by
    simp only [Double.le, decide_eq_true_eq] at *
    have := Double.mul_mono h (Nat.le_refl (Double.ofPct c).n)
    rwa [Double.one_mul _ _ ofPct_100] at this
  pct_lt b c h hb := by
    simp only [Double.le, decide_eq_false_iff_not]
    have h1 := ofPct_steps c (by omega)
    have h2 := ofPct_mono (show c + 1 ≤ b by omega)
    omega
  mul_mono a b c h := by
    simp only [Double.le, decide_eq_true_eq] at *
    exact Double.mul_mono h (Nat.le_refl _)

/-- 0.1 times 0.1 is not 0.01 in `double`. -/
example : ((Double.ofPct 10).mul (Double.ofPct 10)).n ≠ (Double.ofPct 1).n := by decide +kernel

end Ppocr

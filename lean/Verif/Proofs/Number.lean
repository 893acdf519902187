import Verif.Model.Session
import Verif.Proofs.Stream
import Verif.Spec.Number

/-! # Printing a `double` -/

namespace Ppocr
open Spec

theorem decAux_length : ∀ (f n : Nat), n ≤ f → 0 < n →
    10 ^ ((decAux f n).length - 1) ≤ n ∧ n < 10 ^ (decAux f n).length ∧ 0 < (decAux f n).length
  | 0, n, h, h0 => by omega
  | f + 1, n, h, h0 => by
    unfold decAux
    by_cases hn : n < 10
    · rw [if_pos hn]
      simp
      omega
    · rw [if_neg hn]
      obtain ⟨h1, h2, h3⟩ := decAux_length f (n / 10) (by omega) (by omega)
      rw [List.length_append, List.length_singleton, Nat.add_sub_cancel]
      have e : (decAux f (n / 10)).length = (decAux f (n / 10)).length - 1 + 1 := by omega
      refine ⟨?_, ?_, by omega⟩
      · rw [e, Nat.pow_succ]
        omega
      · rw [Nat.pow_succ]
        omega

theorem showNat_length {n : Nat} (h : 0 < n) : 10 ^ ((showNat n).length - 1) ≤ n ∧ n < 10 ^ (showNat n).length ∧
    0 < (showNat n).length := decAux_length n n (Nat.le_refl n) h

theorem showNat_digit {n : Nat} (h : n < 10) : showNat n = [48 + n] := by
  unfold showNat
  cases n with
  | zero => rfl
  | succ k =>
    unfold decAux
    rw [if_pos h]

theorem dropZeros_spec (l : List Nat) : (dropZeros l).getLast? ≠ some 48 ∧
    ∃ z, l = dropZeros l ++ List.replicate z 48 := by
  unfold dropZeros
  have h := List.takeWhile_append_dropWhile (p := fun c : Nat => decide (c = 48)) (l := l.reverse)
  refine ⟨?_, (l.reverse.takeWhile (· = 48)).length, ?_⟩
  · rw [List.getLast?_reverse]
    intro e
    have := List.head?_dropWhile_not (fun c : Nat => decide (c = 48)) l.reverse
    rw [e] at this
    simp at this
  · have ha : l.reverse.takeWhile (· = 48) = List.replicate (l.reverse.takeWhile (· = 48)).length 48 := by
      rw [List.eq_replicate_iff]
      refine ⟨rfl, fun b hb => ?_⟩
      have := List.all_takeWhile (p := fun c : Nat => decide (c = 48)) (l := l.reverse)
      rw [List.all_eq_true] at this
      simpa using this b hb
    have h2 := congrArg List.reverse h
    rw [List.reverse_append, List.reverse_reverse] at h2
    rw [ha, List.reverse_replicate] at h2
    exact h2.symm

theorem scientific_written (m e : Nat) : WrittenSix m e (scientific m (e + 5)) := by
  unfold scientific
  cases hs : showNat m with
  | nil => exact absurd hs (showNat_ne m)
  | cons c cs =>
    obtain ⟨h1, z, h2⟩ := dropZeros_spec cs
    refine ⟨c, dropZeros cs, z, ?_, h1, ?_⟩
    · rw [List.cons_append, ← h2]
      exact hs
    · have he : (if e + 5 < 10 then 48 :: showNat (e + 5) else showNat (e + 5)) =
          (if e + 5 < 10 then [48, 48 + (e + 5)] else showNat (e + 5)) := by
        split
        · next h => rw [showNat_digit h]
        · rfl
      simp only [he]
      split <;> simp

/-- Rounding to a multiple. -/
theorem nearest_multiple {n u q r m : Nat} (hn : n = q * u + r) (hr : r < u)
    (hm : m = if u < 2 * r ∨ u = 2 * r ∧ q % 2 = 1 then q + 1 else q) :
    apart n (m * u) ≤ n - q * u ∧ ∀ k, apart n (m * u) ≤ apart n (k * u) ∧
      (k * u ≠ m * u → apart n (m * u) = apart n (k * u) → m % 2 = 0) := by
  unfold apart
  have e1 : (q + 1) * u = q * u + u := by rw [Nat.add_mul, Nat.one_mul]
  have hk : ∀ k, k * u + u ≤ q * u ∨ k * u = q * u ∨ k * u = (q + 1) * u ∨ (q + 1) * u + u ≤ k * u := by
    intro k
    have hs : ∀ a, (a + 1) * u = a * u + u := fun a => by rw [Nat.add_mul, Nat.one_mul]
    rcases Nat.lt_trichotomy k q with h | h | h
    · left
      rw [← hs]
      exact Nat.mul_le_mul_right u h
    · subst h
      exact .inr (.inl rfl)
    · rcases Nat.lt_or_ge (q + 1) k with h' | h'
      · right; right; right
        rw [← hs]
        exact Nat.mul_le_mul_right u h'
      · have : k = q + 1 := by omega
        subst this
        exact .inr (.inr (.inl rfl))
  split at hm
  · rw [hm]
    rw [e1] at *
    generalize q * u = Q at *
    refine ⟨by omega, fun k => ?_⟩
    have := hk k
    generalize k * u = K at *
    exact ⟨by omega, by omega⟩
  · rw [hm]
    rw [e1] at hk
    generalize q * u = Q at *
    refine ⟨by omega, fun k => ?_⟩
    have := hk k
    generalize k * u = K at *
    exact ⟨by omega, by omega⟩

/-- A number of six digits is a multiple of the unit, or far below. -/
theorem six_multiple {m' e' d : Nat} (h : m' < 10 ^ 6) : (∃ k, m' * 10 ^ e' = k * 10 ^ d) ∨ m' * 10 ^ e' < 10 ^ 5 * 10 ^ d := by
  rcases Nat.lt_or_ge e' d with hd | hd
  · right
    calc m' * 10 ^ e' < 10 ^ 6 * 10 ^ e' := Nat.mul_lt_mul_of_pos_right h (Nat.pow_pos (by omega))
      _ = 10 ^ 5 * 10 ^ (e' + 1) := by rw [Nat.pow_succ 10 e']; omega
      _ ≤ 10 ^ 5 * 10 ^ d := Nat.mul_le_mul_left _ (Nat.pow_le_pow_right (by omega) hd)
  · left
    refine ⟨m' * 10 ^ (e' - d), ?_⟩
    rw [Nat.mul_assoc, ← Nat.pow_add]
    congr 2
    omega

theorem nearest_six {n m d : Nat} (u q : Nat) (hu : u = 10 ^ d) (hq : q = n / u) (h5 : 10 ^ 5 ≤ q)
    (hm : m = if u < 2 * (n % u) ∨ u = 2 * (n % u) ∧ q % 2 = 1 then q + 1 else q) :
    (∀ m' e', m' < 10 ^ 6 → apart n (m * u) ≤ apart n (m' * 10 ^ e')) ∧
    (∀ m' e', m' < 10 ^ 6 → m' * 10 ^ e' ≠ m * u → apart n (m * u) = apart n (m' * 10 ^ e') → m % 2 = 0) := by
  have hu0 : 0 < u := by rw [hu]; exact Nat.pow_pos (by omega)
  have hn : n = q * u + n % u := by
    rw [hq, Nat.mul_comm]
    exact (Nat.div_add_mod n u).symm
  obtain ⟨h1, h2⟩ := nearest_multiple hn (Nat.mod_lt _ hu0) hm
  have h6 : 10 ^ 5 * u ≤ q * u := Nat.mul_le_mul_right u h5
  have hlow : ∀ x, x < 10 ^ 5 * u → n - q * u < apart n x := by
    intro x hx
    unfold apart
    omega
  refine ⟨fun m' e' h => ?_, fun m' e' h hne he => ?_⟩
  · rcases six_multiple (e' := e') (d := d) h with ⟨k, e⟩ | hlt
    · rw [e, ← hu]
      exact (h2 k).1
    · rw [← hu] at hlt
      exact Nat.le_of_lt (Nat.lt_of_le_of_lt h1 (hlow _ hlt))
  · rcases six_multiple (e' := e') (d := d) h with ⟨k, e⟩ | hlt
    · rw [e, ← hu] at hne he
      exact (h2 k).2 hne he
    · rw [← hu] at hlt
      have := hlow _ hlt
      omega

theorem showDouble_six {n : Nat} (h : 10 ^ 6 ≤ n) : ∃ m e, NearestSix n m e ∧ WrittenSix m e (showDouble n) := by
  obtain ⟨h1, h2, h3⟩ := showNat_length (n := n) (by omega)
  have hlen : 6 < (showNat n).length := by
    apply Classical.byContradiction
    intro hc
    have : 10 ^ (showNat n).length ≤ 10 ^ 6 := Nat.pow_le_pow_right (by omega) (by omega)
    omega
  obtain ⟨d, hd⟩ : ∃ d, (showNat n).length = d + 6 := ⟨(showNat n).length - 6, by omega⟩
  unfold showDouble
  rw [if_neg (by omega)]
  rw [hd] at h1 h2 ⊢
  rw [show d + 6 - 1 = d + 5 by omega] at h1 ⊢
  dsimp only
  rw [show d + 5 - 5 = d by omega]
  have hu0 : 0 < 10 ^ d := Nat.pow_pos (by omega)
  have hq5 : 10 ^ 5 ≤ n / 10 ^ d := by
    rw [Nat.le_div_iff_mul_le hu0, ← Nat.pow_add, Nat.add_comm]
    exact h1
  have hq6 : n / 10 ^ d < 10 ^ 6 := by
    rw [Nat.div_lt_iff_lt_mul hu0, ← Nat.pow_add, Nat.add_comm]
    exact h2
  obtain ⟨hnear, heven⟩ := nearest_six (n := n) (10 ^ d) (n / 10 ^ d) rfl rfl hq5 rfl
  generalize hm : (if 10 ^ d < 2 * (n % 10 ^ d) ∨ 10 ^ d = 2 * (n % 10 ^ d) ∧ n / 10 ^ d % 2 = 1 then n / 10 ^ d + 1
    else n / 10 ^ d) = m at *
  have hm5 : 10 ^ 5 ≤ m ∧ m ≤ 10 ^ 6 := by
    rw [← hm]
    split <;> omega
  split
  · next he =>
    have e10 : 10 ^ 5 * 10 ^ (d + 1) = m * 10 ^ d := by
      rw [he, Nat.pow_succ 10 d]
      omega
    refine ⟨10 ^ 5, d + 1, ⟨⟨Nat.le_refl _, by omega⟩, ?_, ?_⟩, ?_⟩
    · rw [e10]
      exact hnear
    · intro _ _ _ _ _
      rfl
    · rw [show d + 5 + 1 = d + 1 + 5 by omega]
      exact scientific_written _ _
  · next he =>
    exact ⟨m, d, ⟨⟨hm5.1, by omega⟩, hnear, heven⟩, scientific_written _ _⟩

end Ppocr

import Verif.Model.Relationship

/-! # Helper lemmas: similarities -/

namespace Ppocr

theorem computeRel_ok {a b k : Nat} (ha : a ≤ k) (hb : b ≤ k) (hk : 0 < k) (hk2 : k * 100 < W32) :
    computeRel a b k = .ok (100 - (a - b + (b - a)) * 100 / k) := by
  unfold computeRel
  have hd : (if a < b then usub b a else usub a b) = a - b + (b - a) := by
    split
    · rw [usub_eq (by omega) (by omega)]; omega
    · rw [usub_eq (by omega) (by omega)]; omega
  have hle : (a - b + (b - a)) * 100 / k ≤ 100 := by
    apply Nat.div_le_of_le_mul
    exact Nat.mul_le_mul_right _ (by omega)
  rw [hd, umul_eq (by omega)]
  unfold udiv
  rw [if_neg (by omega)]
  generalize (a - b + (b - a)) * 100 / k = q at *
  have e : usub 100 q = 100 - q := usub_eq (by simp only [W32]; omega) hle
  simp only [Res.ok_bind, e]
  rw [show decide (100 - q ≤ 100) = true from by simp]
  rfl

theorem sameCount_ok {V : Type} [DecidableEq V] (a b : List V) (n : Nat) (hl : a.length = b.length)
    (hn : n + a.length < W32) :
    sameCount a b n = .ok (n + (List.zip a b).countP fun p => decide (p.1 = p.2)) := by
  induction a generalizing b n with
  | nil =>
    cases b with
    | nil => rfl
    | cons y b => exact absurd hl (by simp)
  | cons x a ih =>
    cases b with
    | nil => exact absurd hl (by simp)
    | cons y b =>
      simp only [List.length_cons] at hl hn
      unfold sameCount
      by_cases h : x = y
      · rw [if_pos h, uadd_eq (by omega), ih b _ (by omega) (by omega), List.zip_cons_cons,
          List.countP_cons_of_pos (by simp [h])]
        congr 1
        omega
      · rw [if_neg h, ih b _ (by omega) (by omega), List.zip_cons_cons,
          List.countP_cons_of_neg (by simp [h])]

theorem arrayCompute_ok {V : Type} [DecidableEq V] {a b : List V} (hl : a.length = b.length)
    (h0 : 0 < a.length) (hn : a.length * 100 < W32) :
    arrayCompute a b = .ok ((List.zip a b).countP (fun p => decide (p.1 = p.2)) * 100 / a.length) := by
  unfold arrayCompute
  rw [sameCount_ok a b 0 hl (by omega), Res.ok_bind, Nat.zero_add]
  have hc : (List.zip a b).countP (fun p => decide (p.1 = p.2)) ≤ a.length := by
    have h1 := List.countP_le_length (p := fun p : V × V => decide (p.1 = p.2)) (l := List.zip a b)
    rw [List.length_zip] at h1
    omega
  rw [umul_eq (by omega)]
  unfold udiv
  rw [if_neg (by omega)]

theorem pzSum_ok (a b : List Nat) (s : Nat) (hl : a.length = b.length)
    (ha : ∀ x ∈ a, 0 < x ∧ x ≤ 100) (hb : ∀ x ∈ b, x ≤ 100) (hs : s + 100 * a.length < W32) :
    ∃ t, pzSum a b s = .ok t ∧ t ≤ s + 100 * a.length := by
  induction a generalizing b s with
  | nil => exact ⟨s, by cases b <;> rfl, by simp⟩
  | cons x a ih =>
    cases b with
    | nil => exact absurd hl (by simp)
    | cons y b =>
      simp only [List.length_cons] at hl hs
      have hx := ha x List.mem_cons_self
      have hy := hb y List.mem_cons_self
      unfold pzSum
      have hq : x * 100 / (x + y) ≤ 100 := by
        apply Nat.div_le_of_le_mul
        exact Nat.mul_le_mul_right _ (by omega)
      rw [uadd_eq (by simp only [W32]; omega), umul_eq (by simp only [W32]; omega)]
      unfold udiv
      rw [if_neg (by omega), Res.ok_bind]
      generalize x * 100 / (x + y) = q at *
      rw [uadd_eq (by omega)]
      obtain ⟨t, e, ht⟩ := ih b (s + q) (by omega)
        (fun z hz => ha z (List.mem_cons_of_mem _ hz)) (fun z hz => hb z (List.mem_cons_of_mem _ hz))
        (by omega)
      refine ⟨t, e, ?_⟩
      simp only [List.length_cons]
      omega

/-- Nothing is divided by zero when no two entries side by side are both zero. -/
theorem pzSum_pairs (a b : List Nat) (s : Nat) (hl : a.length = b.length) (hp : ∀ p ∈ a.zip b, 0 < p.1 + p.2)
    (ha : ∀ x ∈ a, x ≤ 100) (hb : ∀ x ∈ b, x ≤ 100) (hs : s + 100 * a.length < W32) :
    ∃ t, pzSum a b s = .ok t ∧ t ≤ s + 100 * a.length := by
  induction a generalizing b s with
  | nil => exact ⟨s, by cases b <;> rfl, by simp⟩
  | cons x a ih =>
    cases b with
    | nil => exact absurd hl (by simp)
    | cons y b =>
      simp only [List.length_cons] at hl hs
      have hx := ha x List.mem_cons_self
      have hy := hb y List.mem_cons_self
      have hxy : 0 < x + y := hp (x, y) (by rw [List.zip_cons_cons]; exact List.mem_cons_self)
      unfold pzSum
      have hq : x * 100 / (x + y) ≤ 100 := by
        apply Nat.div_le_of_le_mul
        exact Nat.mul_le_mul_right _ (by omega)
      rw [uadd_eq (by simp only [W32]; omega), umul_eq (by simp only [W32]; omega)]
      unfold udiv
      rw [if_neg (by omega), Res.ok_bind]
      generalize x * 100 / (x + y) = q at *
      rw [uadd_eq (by omega)]
      obtain ⟨t, e, ht⟩ := ih b (s + q) (by omega)
        (fun p h => hp p (by rw [List.zip_cons_cons]; exact List.mem_cons_of_mem _ h))
        (fun z hz => ha z (List.mem_cons_of_mem _ hz)) (fun z hz => hb z (List.mem_cons_of_mem _ hz))
        (by omega)
      refine ⟨t, e, ?_⟩
      simp only [List.length_cons]
      omega

/-- Two lists that start with zero: a division by zero. -/
theorem pzSum_zero (a b : List Nat) (s : Nat) : pzSum (0 :: a) (0 :: b) s = .ub := rfl

theorem pzSum_same (a : List Nat) (s : Nat)
    (ha : ∀ x ∈ a, 0 < x ∧ x ≤ 100) (hs : s + 50 * a.length < W32) :
    pzSum a a s = .ok (s + 50 * a.length) := by
  induction a generalizing s with
  | nil => rfl
  | cons x a ih =>
    simp only [List.length_cons] at hs
    have hx := ha x List.mem_cons_self
    unfold pzSum
    have hq : x * 100 / (x + x) = 50 := by
      apply Nat.div_eq_of_lt_le <;> omega
    rw [uadd_eq (by simp only [W32]; omega), umul_eq (by simp only [W32]; omega)]
    unfold udiv
    rw [if_neg (by omega), Res.ok_bind, hq, uadd_eq (by omega),
      ih (s + 50) (fun z hz => ha z (List.mem_cons_of_mem _ hz)) (by omega)]
    simp only [List.length_cons]
    congr 1
    omega

end Ppocr

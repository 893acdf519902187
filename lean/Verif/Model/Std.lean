import Verif.Sort

/-!
# The parts of the standard library used by `ocr2`

`std::sort` is a parameter: any function that returns a sorted permutation when the comparator is a strict
weak ordering, with no promise about ties or about other comparators.
`double` is an abstract type: non-negative numbers without NaN.
-/

namespace Ppocr

/-- A strict weak ordering. -/
structure StrictWeak {α : Type} (lt : α → α → Bool) : Prop where
  irrefl : ∀ a, lt a a = false
  trans : ∀ a b c, lt a b = true → lt b c = true → lt a c = true
  incomp : ∀ a b c, lt a b = false → lt b a = false → lt b c = false → lt c b = false →
    lt a c = false ∧ lt c a = false

/-- `std::sort`. -/
structure StdSort where
  sort : {α : Type} → (α → α → Bool) → List α → List α
  perm : ∀ {α : Type} (lt : α → α → Bool) (l : List α), StrictWeak lt → (sort lt l).Perm l
  sorted : ∀ {α : Type} (lt : α → α → Bool) (l : List α), StrictWeak lt →
    (sort lt l).Pairwise fun a b => lt b a = false

/-- An insertion sort is a `std::sort`; used in the examples. -/
def insertionSort : StdSort where
  sort lt l := sortBy (fun a b => !lt b a) l
  perm lt l _ := sortBy_perm _ l
  sorted lt l h := by
    have := sortBy_sorted (le := fun a b => !lt b a) (by
        intro a b hab
        simp only [Bool.not_eq_false', Bool.not_eq_true'] at hab ⊢
        cases hba : lt a b with
        | false => rfl
        | true =>
          have := h.trans a b a hba hab
          rw [h.irrefl] at this
          exact this.symm)
      (by
        intro a b c hab hbc
        simp only [Bool.not_eq_true'] at hab hbc ⊢
        cases hca : lt c a with
        | false => rfl
        | true =>
          exfalso
          cases h1 : lt a b with
          | true =>
            have := h.trans c a b hca h1
            rw [hbc] at this
            exact absurd this (by simp)
          | false =>
            cases h2 : lt b c with
            | true =>
              have := h.trans b c a h2 hca
              rw [hab] at this
              exact absurd this (by simp)
            | false =>
              have := (h.incomp a b c h1 hab h2 hbc).2
              rw [hca] at this
              exact absurd this (by simp)) l
    simpa using this

/-- Non-negative `double`s: product, comparison and `n / 100.`. -/
class Dbl (P : Type) where
  mul : P → P → P
  le : P → P → Bool
  ofPct : Nat → P

/-- What is assumed about them: `<=` is a total preorder and halving does not increase. -/
class LawfulDbl (P : Type) extends Dbl P where
  total : ∀ a b : P, le a b = false → le b a = true
  trans : ∀ a b c : P, le a b = true → le b c = true → le a c = true
  half_le : ∀ a : P, le (mul a (ofPct 50)) a = true

/-- What is assumed besides where a perfect similarity matters: a product of numbers that are at least 1 is at least 1, a
percentage does not increase what it multiplies, a product by a number that is at most 1 is at most the other factor, and
`n / 100.` grows with `n` up to 100. -/
class ScoreDbl (P : Type) extends LawfulDbl P where
  one_le_mul : ∀ a b : P, le (ofPct 100) a = true → le (ofPct 100) b = true → le (ofPct 100) (mul a b) = true
  mul_le : ∀ (a : P) (c : Nat), c ≤ 100 → le (mul a (ofPct c)) a = true
  mul_le_pct : ∀ (a : P) (c : Nat), le a (ofPct 100) = true → c ≤ 100 → le (mul a (ofPct c)) (ofPct c) = true
  pct_lt : ∀ b c : Nat, c < b → b ≤ 100 → le (ofPct b) (ofPct c) = false

/-- What is assumed besides where two candidates of equal probability are compared: a product does not decrease when its first
factor grows. -/
class MonoDbl (P : Type) extends ScoreDbl P where
  mul_mono : ∀ a b c : P, le a b = true → le (mul a c) (mul b c) = true

/-- `a > b`. -/
def gtP {P : Type} [Dbl P] (a b : P) : Bool := !Dbl.le a b

/-- Exact decimal fractions, used in the examples: `n / 100^e`. -/
structure Frac where
  n : Nat
  e : Nat
  deriving Repr, DecidableEq

instance : LawfulDbl Frac where
  mul a b := ⟨a.n * b.n, a.e + b.e⟩
  le a b := decide (a.n * 100 ^ b.e ≤ b.n * 100 ^ a.e)
  ofPct n := ⟨n, 1⟩
  total a b h := by simp at h ⊢; omega
  trans a b c h1 h2 := by
    simp only [decide_eq_true_eq] at *
    have hb : 0 < 100 ^ b.e := Nat.pow_pos (by omega)
    apply Nat.le_of_mul_le_mul_right _ hb
    have e1 : a.n * 100 ^ c.e * 100 ^ b.e = a.n * 100 ^ b.e * 100 ^ c.e := by
      rw [Nat.mul_assoc, Nat.mul_comm (100 ^ c.e), ← Nat.mul_assoc]
    have e2 : c.n * 100 ^ a.e * 100 ^ b.e = c.n * 100 ^ b.e * 100 ^ a.e := by
      rw [Nat.mul_assoc, Nat.mul_comm (100 ^ a.e), ← Nat.mul_assoc]
    have e3 : b.n * 100 ^ a.e * 100 ^ c.e = b.n * 100 ^ c.e * 100 ^ a.e := by
      rw [Nat.mul_assoc, Nat.mul_comm (100 ^ a.e), ← Nat.mul_assoc]
    rw [e1, e2]
    calc a.n * 100 ^ b.e * 100 ^ c.e ≤ b.n * 100 ^ a.e * 100 ^ c.e := Nat.mul_le_mul_right _ h1
      _ = b.n * 100 ^ c.e * 100 ^ a.e := e3
      _ ≤ _ := Nat.mul_le_mul_right _ h2
  half_le a := by
    simp only [decide_eq_true_eq, Nat.pow_add, Nat.pow_one]
    rw [Nat.mul_assoc]
    apply Nat.mul_le_mul_left
    rw [Nat.mul_comm]
    exact Nat.mul_le_mul_left _ (by omega)

instance : ScoreDbl Frac where
  one_le_mul a b h1 h2 := by
    simp only [Dbl.le, Dbl.mul, Dbl.ofPct, decide_eq_true_eq, Nat.pow_one, Nat.pow_add] at *
    have := Nat.mul_le_mul (Nat.le_of_mul_le_mul_left (Nat.mul_comm b.n _ ▸ h2 : 100 * 100 ^ b.e ≤ 100 * b.n) (by omega))
      (Nat.le_of_mul_le_mul_left (Nat.mul_comm a.n _ ▸ h1 : 100 * 100 ^ a.e ≤ 100 * a.n) (by omega))
    rw [Nat.mul_comm (100 ^ a.e), Nat.mul_comm a.n]
    omega
  mul_le a c h := by
    simp only [Dbl.le, Dbl.mul, Dbl.ofPct, decide_eq_true_eq, Nat.pow_add, Nat.pow_one]
    rw [Nat.mul_assoc]
    apply Nat.mul_le_mul_left
    rw [Nat.mul_comm]
    exact Nat.mul_le_mul_left _ h
  mul_le_pct a c h hc := by
    simp only [Dbl.le, Dbl.mul, Dbl.ofPct, decide_eq_true_eq, Nat.pow_add, Nat.pow_one] at *
    have := Nat.mul_le_mul_left c (show a.n * 100 ≤ 100 * 100 ^ a.e from h)
    rw [Nat.mul_comm a.n c, Nat.mul_assoc, Nat.mul_comm (100 ^ a.e)]
    exact this
  pct_lt b c h _ := by
    simp only [Dbl.le, Dbl.ofPct, decide_eq_false_iff_not, Nat.pow_one]
    omega

instance : MonoDbl Frac where
  mul_mono a b c h := by
    simp only [Dbl.le, Dbl.mul, decide_eq_true_eq, Nat.pow_add] at *
    have := Nat.mul_le_mul_right (c.n * 100 ^ c.e) h
    have e : ∀ x y z w : Nat, x * y * (z * w) = x * z * (y * w) := by
      intro x y z w
      rw [Nat.mul_assoc, Nat.mul_assoc, Nat.mul_left_comm y]
    rw [e, e b.n] at this
    exact this

variable {α : Type}

/-- `std::remove_if` followed by the truncation of the range: the predicate is evaluated once on each
element, in order, and the others keep their order. -/
def removeIf (p : α → Res Bool) : List α → Res (List α)
  | [] => .ok []
  | a :: l => do
    let b ← p a
    let r ← removeIf p l
    return if b then r else a :: r

/-- The loop of `std::unique` and `std::unique_copy` on forward iterators: `last` is the last element kept. -/
def uniqueFrom (eq : α → α → Res Bool) (last : α) : List α → Res (List α)
  | [] => .ok [last]
  | b :: l => do
    let e ← eq last b
    if e then uniqueFrom eq last l
    else do
      let r ← uniqueFrom eq b l
      return last :: r

/-- `std::unique` with the truncation of the range. -/
def uniqueBy (eq : α → α → Res Bool) : List α → Res (List α)
  | [] => .ok []
  | a :: l => uniqueFrom eq a l

/-- `std::lower_bound` / `std::upper_bound` in libstdc++: `first` and `len` delimit the range, `p k` tells
that the boundary is behind position `k`. -/
def partitionPoint (p : Nat → Res Bool) : Nat → Nat → Nat → Res Nat
  | 0, _, _ => .diverge
  | fuel + 1, first, len =>
    if len = 0 then .ok first
    else do
      let half := len / 2
      let b ← p (first + half)
      if b then partitionPoint p fuel (first + half + 1) (len - half - 1)
      else partitionPoint p fuel first half

end Ppocr

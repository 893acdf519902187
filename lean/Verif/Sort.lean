import Verif.Basic

/-!
# Sorting

A sort that can be evaluated, for the `std::sort` calls whose result is determined by the order (total
orders on numbers, or where ties are equal).
-/

namespace Ppocr

variable {α : Type}

/-- Insert before the first element that is not smaller. -/
def insertBy (le : α → α → Bool) (a : α) : List α → List α
  | [] => [a]
  | b :: l => if le a b then a :: b :: l else b :: insertBy le a l

def sortBy (le : α → α → Bool) : List α → List α
  | [] => []
  | a :: l => insertBy le a (sortBy le l)

theorem insertBy_perm (le : α → α → Bool) (a : α) (l : List α) : (insertBy le a l).Perm (a :: l) := by
  induction l with
  | nil => exact List.Perm.refl _
  | cons b l ih =>
    unfold insertBy
    split
    · exact List.Perm.refl _
    · exact (List.Perm.cons b ih).trans (List.Perm.swap a b l)

theorem sortBy_perm (le : α → α → Bool) (l : List α) : (sortBy le l).Perm l := by
  induction l with
  | nil => exact List.Perm.refl _
  | cons a l ih => exact (insertBy_perm le a _).trans (List.Perm.cons a ih)

theorem insertBy_sorted {le : α → α → Bool} (tot : ∀ a b, le a b = false → le b a = true)
    (tr : ∀ a b c, le a b = true → le b c = true → le a c = true) (a : α) (l : List α)
    (h : l.Pairwise fun x y => le x y = true) : (insertBy le a l).Pairwise fun x y => le x y = true := by
  induction l with
  | nil => simp [insertBy]
  | cons b l ih =>
    rw [List.pairwise_cons] at h
    unfold insertBy
    split
    · rename_i hab
      rw [List.pairwise_cons]
      refine ⟨?_, List.pairwise_cons.2 h⟩
      intro c hc
      rcases List.mem_cons.1 hc with e | hc
      · rw [e]; exact hab
      · exact tr a b c hab (h.1 c hc)
    · rename_i hab
      rw [List.pairwise_cons]
      refine ⟨?_, ih h.2⟩
      intro c hc
      rcases List.mem_cons.1 ((insertBy_perm le a l).mem_iff.1 hc) with e | hc
      · rw [e]
        exact tot a b (by simpa using hab)
      · exact h.1 c hc

theorem sortBy_sorted {le : α → α → Bool} (tot : ∀ a b, le a b = false → le b a = true)
    (tr : ∀ a b c, le a b = true → le b c = true → le a c = true) (l : List α) :
    (sortBy le l).Pairwise fun x y => le x y = true := by
  induction l with
  | nil => exact List.Pairwise.nil
  | cons a l ih => exact insertBy_sorted tot tr a _ ih

/-- Ascending sort of numbers. -/
def sortNat (l : List Nat) : List Nat := sortBy (fun a b => decide (a ≤ b)) l

theorem sortNat_perm (l : List Nat) : (sortNat l).Perm l := sortBy_perm _ l

theorem sortNat_sorted (l : List Nat) : (sortNat l).Pairwise (· ≤ ·) := by
  have := sortBy_sorted (le := fun a b : Nat => decide (a ≤ b))
    (by intro a b; simp; omega) (by intro a b c; simp; omega) l
  simpa [sortNat] using this

end Ppocr

import Verif.Spec.Utf

/-!
# Choosing one candidate per position

A candidate is a string of characters. Only `mem` refers to bytes.
-/

namespace Ppocr.Spec

/-- All the ways to choose one candidate per position, the preferred ones first: the first position counts
most. -/
def choices {α : Type} : List (List α) → List (List α)
  | [] => [[]]
  | cands :: rest => cands.flatMap fun c => (choices rest).map (c :: ·)

/-- What a choice spells. -/
def spell (ch : List (List Nat)) : List Nat := ch.flatten

/-- What the program compares with the dictionary: only the first character of the last candidate is
looked at. -/
def spellCut : List (List Nat) → List Nat
  | [] => []
  | [c] => c.take 1
  | c :: d :: ch => c ++ spellCut (d :: ch)

/-- The first choice whose spelling `sp` is one of the words. -/
def preferred (sp : List (List Nat) → List Nat) (words : List (List Nat)) (table : List (List (List Nat))) :
    Option (List (List Nat)) :=
  (choices table).find? fun ch => decide (sp ch ∈ words)

/-- The memory of a candidate: its bytes, the terminator and whatever follows. -/
def mem (p : List Nat × List Nat) : List Nat := encAll p.1 ++ 0 :: p.2

/-- A candidate of the search: valid and not empty. -/
def GoodCand (p : List Nat × List Nat) : Prop := p.1 ≠ [] ∧ ∀ c ∈ p.1, Scalar c

end Ppocr.Spec

import Verif.Spec.Utf
import Verif.Spec.Trie

/-! # What a word list and its compiled form have to do with each other -/

namespace Ppocr.Spec

/-- `ps` lists the different beginnings of the words, the words themselves included, each of them once. -/
def Beginnings (ws ps : List (List Nat)) : Prop :=
  ps.Nodup ∧ ∀ p, p ∈ ps ↔ p ≠ [] ∧ ∃ w ∈ ws, p <+: w

/-- The ways into a trie: the values on the paths to all of its nodes. -/
def ways : Trie → List (List Nat)
  | .nil => []
  | .node x _ k n => [x] :: (ways k).map (x :: ·) ++ ways n

/-- No way into the trie is in vain: a node without children is the end of a word. -/
def Alive : Trie → Prop
  | .nil => True
  | .node _ b k n => (b = true ∨ k ≠ .nil) ∧ Alive k ∧ Alive n

end Ppocr.Spec

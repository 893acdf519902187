import Verif.Model.Trie
import Verif.Spec.Utf

/-! # What a trie means -/

namespace Ppocr.Spec

/-- The words of a trie, in order: the values on the paths to the terminal nodes. -/
def lang : Trie → List (List Nat)
  | .nil => []
  | .node x b k n => (if b then [[x]] else []) ++ (lang k).map (x :: ·) ++ lang n

/-- Siblings are strictly increasing, at all levels. -/
def SortedTrie : Trie → Prop
  | .nil => True
  | .node x _ k n => (∀ m ∈ n.nodes, x < m.x) ∧ SortedTrie k ∧ SortedTrie n

/-- The node of value `c` among the first level. -/
def find : Trie → Nat → Option (Bool × Trie)
  | .nil, _ => none
  | .node x b k n, c => if x = c then some (b, k) else find n c

/-- The node at the end of a path. -/
def descend : Trie → List Nat → Option (Bool × Trie)
  | _, [] => none
  | t, [c] => find t c
  | t, c :: d :: cs =>
    match find t c with
    | none => none
    | some (_, k) => descend k (d :: cs)

/-- The nodes of the vector `E` from `lo` on are those of the trie, and below each of them the same holds of
its children. -/
def Rep (E : List FNode) : Nat → Trie → Prop
  | lo, .nil => lo ≤ E.length
  | lo, .node x b k n => ∃ f, E[lo]? = some f ∧ f.x = x ∧ f.term = b ∧ f.count = k.size ∧
      Rep E (lo + f.pos) k ∧ Rep E (lo + 1) n

end Ppocr.Spec

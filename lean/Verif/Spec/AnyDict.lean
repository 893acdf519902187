import Verif.Model.Trie

/-! # Specification of dictionaries whose nodes do not lead out of them -/

namespace Ppocr.Spec

/-- The first nodes, and the children of each node that has some, lie in the dictionary. Nothing is said of their order, and a
node may be its own descendant. -/
structure StaysInside (E : List FNode) : Prop where
  root : ∀ f, E[0]? = some f → f.pos ≤ E.length
  kids : ∀ (i : Nat) f, E[i]? = some f → f.count ≠ 0 → i + f.pos + f.count ≤ E.length

end Ppocr.Spec

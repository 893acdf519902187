import Verif.Spec.Line6

/-! # Specification: the text of a line and of its parts -/

namespace Ppocr.Spec

/-- The text of a line that is cut at a space, and the texts of its parts: the text of the first part, the space, the
separators the second part begins with, which are not printed for that part alone, and the text of the second part; if there
is no word in the first part, nothing is printed before the text of the second. -/
def TextParts (ta tb tc : List Nat) : Prop :=
  (ta = [] ∧ tc = tb) ∨ ∃ sep, (∀ c ∈ sep, c ∈ stops) ∧ tc = ta ++ [32] ++ sep ++ tb

end Ppocr.Spec

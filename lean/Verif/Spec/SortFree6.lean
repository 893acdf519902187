import Verif.Spec.Text6

/-! # Specification: the best pictures for a letter in `extract_text6` -/

namespace Ppocr.Spec

/-- Picture `i` of `imgs` is one of the best for the letter `a`: it matches, or it is near and none matches. -/
def Best6 (imgs : List Image) (a i : Image) : Prop := Exact6 i a ∨ ((∀ j ∈ imgs, ¬ Exact6 j a) ∧ Near6 i a)

end Ppocr.Spec

import Verif.Spec.Image
import Verif.Model.ImageCompare

namespace Ppocr.Spec

/-- Picture order: by width, then height, then the first cell (in reading order) where they
differ, cells being compared as signed characters. -/
def PictureLt (a b : Image) : Prop :=
  a.bounds.w < b.bounds.w ∨
  (a.bounds.w = b.bounds.w ∧
    (a.bounds.h < b.bounds.h ∨
     (a.bounds.h = b.bounds.h ∧
       ∃ (k : Nat) (p q : Pixel), (∀ j, j < k → a.data[j]? = b.data[j]?) ∧
         a.data[k]? = some p ∧ b.data[k]? = some q ∧ schar p < schar q)))

end Ppocr.Spec

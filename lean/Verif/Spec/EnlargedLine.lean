import Verif.Spec.Enlarged
import Verif.Spec.Box
import Verif.Spec.ExtractText

/-! # Specification of enlarged lines -/

namespace Ppocr.Spec

/-- The place and the size of a box in a line blown up `k` times. -/
def scaledBox (k : Nat) (b : Box) : Box := ⟨k * b.x, k * b.y, k * b.w, k * b.h⟩

/-- The two lists hold, place by place, a picture and the picture blown up. -/
def AllEnlarged (k : Nat) : List Image → List Image → Prop
  | [], [] => True
  | a :: as, b :: bs => Enlarged k a b ∧ AllEnlarged k as bs
  | _, _ => False

end Ppocr.Spec

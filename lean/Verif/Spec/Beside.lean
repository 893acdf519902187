import Verif.Spec.Margins

/-! # Specification: a line cut into two pictures -/

namespace Ppocr.Spec

/-- The columns of `i'` from column `left` on show `i`, at its full height. -/
structure Part (left : Nat) (i i' : Image) : Prop where
  wide : left + i.bounds.w ≤ i'.bounds.w
  high : i'.bounds.h = i.bounds.h
  inside : ∀ x y, x < i.bounds.w → y < i.bounds.h → pix i' (x + left) y = pix i x y

/-- `c` is the line that shows `a` and, to its right, `b`. -/
structure Beside (a b c : Image) : Prop where
  front : Part 0 a c
  back : Part a.bounds.w b c
  wide : c.bounds.w = a.bounds.w + b.bounds.w

end Ppocr.Spec

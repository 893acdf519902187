import Verif.Spec.Features
import Verif.Model.DzDensity

namespace Ppocr.Spec

/-- The diagonal band of the documentation: column `x` of row `y` is in the band when the whole cell
lies between the lines `(y+1)·w/h - w/3` and `y·w/h + w/3` (multiplied by `3h`). -/
def Band (w h x y : Nat) : Bool :=
  decide (3 * (w * (y + 1)) ≤ 3 * (h * x) + w * h) && decide (3 * (h * (x + 1)) ≤ 3 * (w * y) + w * h)

/-- Number of cells of the band. -/
def bandArea (i : Image) : Nat :=
  sumTo i.bounds.h fun y => (List.range i.bounds.w).countP fun x => Band i.bounds.w i.bounds.h x y

/-- Number of letter pixels in the band. -/
def bandMass (i : Image) : Nat :=
  sumTo i.bounds.h fun y => (List.range i.bounds.w).countP fun x =>
    Band i.bounds.w i.bounds.h x y && letter i x y

/-- `r` is `i` turned by 180 degrees. -/
structure HalfTurn (i r : Image) : Prop where
  bounds : r.bounds = i.bounds
  cells : ∀ x y, x < i.bounds.w → y < i.bounds.h →
    pix r x y = pix i (i.bounds.w - 1 - x) (i.bounds.h - 1 - y)

end Ppocr.Spec

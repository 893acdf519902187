import Verif.Spec.DzDensity
import Verif.Spec.Datas

/-! # Pictures in a mirror and upside down, and the columns that do not see it -/

namespace Ppocr.Spec

/-- `m` is `i` mirrored left to right, as `b` and `d`. -/
structure Reflected (i m : Image) : Prop where
  bounds : m.bounds = i.bounds
  cells : ∀ x y, x < i.bounds.w → pix m x y = pix i (i.bounds.w - 1 - x) y

/-- The columns that are the same for a picture and the picture turned by 180 degrees, as `b` and `q`. -/
def turnFree : List (Feat × Policy) :=
  [(.proportionality, .img), (.density, .img), (.hbar, .img), (.hbar, .img90), (.dzdensity, .img), (.dzdensity, .img90)]

/-- The columns that are the same for a picture and its mirror image, left to right. -/
def mirrorFree : List (Feat × Policy) :=
  [(.proportionality, .img), (.density, .img), (.hbar, .img), (.hbar, .img90), (.hdirection, .img), (.hdirection2, .img),
   (.hgravity, .img), (.hgravity2, .img), (.dvdirection, .img), (.dvdirection2, .img), (.dvgravity, .img), (.dvgravity2, .img)]

end Ppocr.Spec

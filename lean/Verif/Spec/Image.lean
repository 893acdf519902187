import Verif.Model.Image

/-!
# Specification vocabulary for images

A picture is a width, a height and a colour for each coordinate.
-/

namespace Ppocr.Spec

/-- Colour at column `x`, row `y` counted from the top left; `none` outside the picture. -/
def pix (i : Image) (x y : Nat) : Option Pixel :=
  if x < i.bounds.w ∧ y < i.bounds.h then i.data[y * i.bounds.w + x]? else none

/-- The cell at column `x`, row `y` is a letter pixel. -/
def letter (i : Image) (x y : Nat) : Bool := pix i x y == some chX

/-- Two pictures show the same thing. -/
def SamePicture (a b : Image) : Prop :=
  a.bounds.w = b.bounds.w ∧ a.bounds.h = b.bounds.h ∧ ∀ x y, pix a x y = pix b x y

end Ppocr.Spec

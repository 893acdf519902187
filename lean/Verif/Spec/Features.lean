import Verif.Spec.Image
import Verif.Model.Features

namespace Ppocr.Spec

/-- `f 0 + f 1 + … + f (n-1)`. -/
def sumTo (n : Nat) (f : Nat → Nat) : Nat := ((List.range n).map f).sum

/-- Number of letter pixels in columns `a .. b-1` of row `y`. -/
def rowMass (i : Image) (y a b : Nat) : Nat := (List.range' a (b - a)).countP fun x => letter i x y

/-- Weighted letter mass of the rows strictly above the middle: row `k` (counted from the top edge)
has weight `wt k` and is restricted to the columns at least `sp k` from both sides. -/
def topMass (i : Image) (wt sp : Nat → Nat) : Nat :=
  sumTo (i.bounds.h / 2) fun k => wt k * rowMass i k (sp k) (i.bounds.w - sp k)

/-- The same for the rows strictly below the middle, counted from the bottom edge. -/
def bottomMass (i : Image) (wt sp : Nat → Nat) : Nat :=
  sumTo (i.bounds.h / 2) fun k =>
    wt k * rowMass i (i.bounds.h - 1 - k) (sp k) (i.bounds.w - sp k)

/-- No weight. -/
def unit : Nat → Nat := fun _ => 1
/-- Distance to the middle of the image, at least 1. -/
def toMiddle (i : Image) : Nat → Nat := fun k => i.bounds.h / 2 - k
/-- Whole rows. -/
def wholeRow : Nat → Nat := fun _ => 0
/-- The triangle pointing to the middle used by the diagonal features. -/
def triangle (i : Image) : Nat → Nat := fun k => i.bounds.w / 2 - i.bounds.w / (k + 1) / 2

/-- All letter pixels of the image. -/
def mass (i : Image) : Nat := sumTo i.bounds.h fun y => rowMass i y 0 i.bounds.w

/-- `m` is `i` mirrored top to bottom. -/
structure Mirror (i m : Image) : Prop where
  bounds : m.bounds = i.bounds
  cells : ∀ x y, y < i.bounds.h → pix m x y = pix i x (i.bounds.h - 1 - y)

/-- The two images agree except perhaps in the middle row of an odd height. -/
structure SameButMiddle (i j : Image) : Prop where
  bounds : j.bounds = i.bounds
  cells : ∀ x y, y < i.bounds.h / 2 ∨ i.bounds.h - i.bounds.h / 2 ≤ y → pix j x y = pix i x y

/-- Row `y` exists and is made only of letter pixels. -/
def FullRow (i : Image) (y : Nat) : Bool :=
  decide (y < i.bounds.h) && (List.range i.bounds.w).all fun x => letter i x y

/-- Number of maximal blocks of consecutive full rows: rows that start such a block. -/
def fullBlocks (i : Image) : Nat :=
  (List.range i.bounds.h).countP fun y => FullRow i y && (y == 0 || !FullRow i (y - 1))

end Ppocr.Spec

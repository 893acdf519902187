import Verif.Spec.Image
import Verif.Model.Box

namespace Ppocr.Spec

/-- Column `x` has no letter pixel. -/
def BlankCol (i : Image) (x : Nat) : Prop := ∀ y, letter i x y = false

/-- Columns `x` and `x+1` are joined: a letter pixel of one touches (also diagonally) one of the
other. -/
def Joined (i : Image) (x : Nat) : Prop :=
  ∃ y y', letter i x y = true ∧ letter i (x + 1) y' = true ∧ y ≤ y' + 1 ∧ y' ≤ y + 1

/-- The cell is inside the box. -/
def InBox (b : Box) (x y : Nat) : Prop := b.x ≤ x ∧ x < b.x + b.w ∧ b.y ≤ y ∧ y < b.y + b.h

/-- What a character box found from column `x0` must be. -/
structure CharBox (i : Image) (x0 : Nat) (b : Box) : Prop where
  wpos : 0 < b.w
  hpos : 0 < b.h
  left : x0 ≤ b.x
  right : b.x + b.w ≤ i.bounds.w
  bottom : b.y + b.h ≤ i.bounds.h
  /-- nothing was skipped -/
  before : ∀ x, x0 ≤ x → x < b.x → BlankCol i x
  /-- no letter pixel of its columns is outside -/
  covers : ∀ x y, b.x ≤ x → x < b.x + b.w → letter i x y = true → InBox b x y
  /-- the first column, first row and last row are not blank -/
  tightLeft : ∃ y, InBox b b.x y ∧ letter i b.x y = true
  tightTop : ∃ x, InBox b x b.y ∧ letter i x b.y = true
  tightBottom : ∃ x, InBox b x (b.y + b.h - 1) ∧ letter i x (b.y + b.h - 1) = true
  /-- consecutive columns are joined -/
  run : ∀ x, b.x ≤ x → x + 1 < b.x + b.w → Joined i x
  /-- and the run is maximal (the last column of the image is never part of a box) -/
  maximal : b.x + b.w + 1 < i.bounds.w → ¬ Joined i (b.x + b.w - 1)
  notLast : b.x + b.w < i.bounds.w

end Ppocr.Spec

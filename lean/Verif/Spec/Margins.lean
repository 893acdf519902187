import Verif.Spec.Box

namespace Ppocr.Spec

/-- `i'` shows `i` with margins: `left` columns and `top` rows in front of it, and any number behind it, none of them with
a letter pixel. -/
structure Margins (left top : Nat) (i i' : Image) : Prop where
  wide : left + i.bounds.w ≤ i'.bounds.w
  high : top + i.bounds.h ≤ i'.bounds.h
  inside : ∀ x y, x < i.bounds.w → y < i.bounds.h → pix i' (x + left) (y + top) = pix i x y
  outside : ∀ x y, letter i' x y = true → left ≤ x ∧ x < left + i.bounds.w ∧ top ≤ y ∧ y < top + i.bounds.h

/-- Rows may be added to the picture: it has two or more, or a letter pixel in its last column (otherwise the search for
letters ends on a failed `assert`, C13); or no row is added. -/
def RowsHeld (i i' : Image) : Prop := 1 < i.bounds.h ∨ ¬ BlankCol i (i.bounds.w - 1) ∨ i'.bounds.h = 1

/-- The box at its place behind the margins. -/
def movedBox (left top : Nat) (b : Box) : Box := ⟨b.x + left, b.y + top, b.w, b.h⟩

end Ppocr.Spec

import Verif.Spec.ExtractText
import Verif.Spec.Box

/-! # Specification: two lines with the same letters -/

namespace Ppocr.Spec

/-- The two line images hold the same letters `as`, in this order, those of the second `top` rows lower, and the same of
their gaps are spaces. Nothing is said about the columns the letters stand in. -/
structure AlikeLines (top : Nat) (i i' : Image) (bs bs' : List Box) (as : List Image) : Prop where
  letters : segment i = .ok bs
  letters' : segment i' = .ok bs'
  pictures : Pictures i bs as
  pictures' : Pictures i' bs' as
  rows : bs'.map Box.y = bs.map fun b => b.y + top
  spaces : ∀ k, Gap bs' k ↔ Gap bs k

/-- `i'` is `i` with `k` blank columns put in before column `p`. -/
structure Widened (p k : Nat) (i i' : Image) : Prop where
  wide : i'.bounds.w = i.bounds.w + k
  high : i'.bounds.h = i.bounds.h
  before : ∀ x y, x < p → y < i.bounds.h → pix i' x y = pix i x y
  behind : ∀ x y, p ≤ x → x < i.bounds.w → y < i.bounds.h → pix i' (x + k) y = pix i x y
  blank : ∀ x, p ≤ x → x < p + k → BlankCol i' x

/-- The two line images hold the same letters `as`, in this order, and the same of the gaps between letters are spaces. Nothing
is said about the rows and columns the letters stand in, and nothing about the gap before the first letter. -/
structure SameLetters (i i' : Image) (bs bs' : List Box) (as : List Image) : Prop where
  letters : segment i = .ok bs
  letters' : segment i' = .ok bs'
  pictures : Pictures i bs as
  pictures' : Pictures i' bs' as
  spaces : ∀ k, 0 < k → (Gap bs' k ↔ Gap bs k)

end Ppocr.Spec

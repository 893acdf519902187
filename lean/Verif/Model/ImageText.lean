import Verif.Model.GlyphIO

/-!
# Images and coordinates as text

Model of `src/ppocr/image/image_from_string.cpp` and of the stream operators of `Index` in
`src/ppocr/image/coordinate.cpp`.
-/

namespace Ppocr

/-- `image_from_string` (image_from_string.cpp L25-35). `mem` is the array `pix_data` points to, terminator
included. The second operand of `&&` is evaluated only if the first one holds; `bnd.area()-1` is an `unsigned`. -/
def imageFromString (b : Bounds) (mem : List Pixel) : Res Image := do
  let e ← rd mem b.area
  if e = 0 then
    let l ← rd mem (usub b.area 1)
    assert (l == chDash || l == chX)
    let o ← copyTo mem 0 b.area { cap := b.area, done := [] }
    o.toImage b
  else .abort

/-- `struct Index` (coordinate.hpp L26-47). -/
structure Idx where
  x : Nat
  y : Nat
  deriving Repr, DecidableEq

/-- `operator<<(std::ostream &, Index const &)`, `coordinate.cpp` L26-28. -/
def idxWrite (i : Idx) : List Nat := showNat i.x ++ 32 :: showNat i.y

/-- `operator>>(std::istream &, Index &)`, `coordinate.cpp` L34-40. `x` and `y` are not initialised, but only
used when both extractions succeed. -/
def idxRead (s : IS) (old : Idx) : Idx × IS :=
  let (x, s) := s.uint maxU 0
  let (y, s) := s.uint maxU 0
  (if s.fail then old else ⟨x, y⟩, s)

end Ppocr

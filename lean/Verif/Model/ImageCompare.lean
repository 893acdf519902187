import Verif.Model.Image

/-!
# Image ordering

Model of `src/ppocr/utils/image_compare.{hpp,cpp}` and `def_img_compare` of `ocr2/cache.hpp`.
-/

namespace Ppocr

/-- Numeric value of a `char` (signed on the supported platforms, x86). -/
def schar (p : Pixel) : Int := if p.toNat < 128 then (p.toNat : Int) else (p.toNat : Int) - 256

/-- `std::mismatch(a, a + n, b)` from offset `i` (image_compare.cpp L41): the offset of the first
difference, or of the end. -/
def mismatchN (a b : List Pixel) : Nat → Nat → Res Nat
  | 0, i => .ok i
  | n + 1, i => do
    let x ← rd a i
    let y ← rd b i
    if x = y then mismatchN a b n (i + 1) else return i

/-- `image_compare` (image_compare.cpp L26-46). -/
def imageCompare (a b : Image) : Res Int :=
  if a.bounds.w < b.bounds.w then .ok (-1)
  else if a.bounds.w > b.bounds.w then .ok 1
  else if a.bounds.h < b.bounds.h then .ok (-1)
  else if a.bounds.h > b.bounds.h then .ok 1
  else do
    let n := umul a.bounds.w a.bounds.h
    let k ← mismatchN a.data b.data n 0
    if k = n then return 0
    else
      let x ← rd a.data k
      let y ← rd b.data k
      if schar x < schar y then return (-1) else return 1

/-- The comparators built on it: `image_compare_fn`/`def_img_compare`
(utils/image_compare.hpp, ocr2/cache.hpp): `image_compare(a, b) < 0`. -/
def imageLess (a b : Image) : Res Bool := do
  let c ← imageCompare a b
  return decide (c < 0)

end Ppocr

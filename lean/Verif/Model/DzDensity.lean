import Verif.Model.Features

/-!
# dzdensity

Model of `src/ppocr/strategies/dzdensity.cpp`.  This function computes in `int`; every intermediate
result goes through `si` (signed overflow is undefined).
-/

namespace Ppocr

/-- The bounds of one row (dzdensity.cpp L38-42). -/
def dzSpan (w area h3 w3 yp : Int) : Res (Int × Int) := do
  let a ← si (w3 + yp)
  let a ← si (a - area)
  let a ← si (a + h3)
  let a ← si (a - 1)
  if h3 = 0 then .ub
  else do
    let xs ← si (Int.tdiv a h3)
    let b ← si (yp + area)
    let xe ← si (Int.tdiv b h3)
    return (max 0 xs, min w xe)

/-- `std::count_if(data+xs, data+xe, is_pix_letter_fn())` (dzdensity.cpp L60), `d` being the offset of
`data`; an inverted or negative range leaves the buffer. -/
def dzCount (data : List Pixel) (d : Nat) (xs xe : Int) : Res Nat :=
  if xs < 0 ∨ xe < xs then .ub else scanLetters data 1 (d + xs.toNat) (d + xe.toNat) 0

/-- The loop of `dzdensity_load_impl` with the lambda of `load` inlined (dzdensity.cpp L30-46, L57-63);
the first argument is the number of rows left.  `res += count` converts a `ptrdiff_t` to `int`;
a value that does not fit is treated as an overflow. -/
def dzLoop (i : Image) (w area h3 w3 : Int) : Nat → Int → Nat → Int → Int → Res (Int × Int)
  | 0, _, _, res, ar => .ok (res, ar)
  | n + 1, yp, d, res, ar => do
    let (xs, xe) ← dzSpan w area h3 w3 yp
    let xs := max 0 xs
    let xe := min w xe
    let c ← dzCount i.data d xs xe
    let res ← si (res + c)
    let k ← si (xe - xs)
    let ar ← si (ar + k)
    let yp ← si (yp + w3)
    dzLoop i w area h3 w3 n yp (d + i.bounds.w) res ar

/-- `dzdensity::load` (dzdensity.cpp L49-67). -/
def dzdensityLoad (i : Image) : Res Nat :=
  if i.bounds.w < 3 ∨ i.bounds.h < 3 then .ok 0
  else do
    let (res, ar) ← dzLoop i (toI32 i.bounds.w) (toI32 i.bounds.area) (toI32 (umul i.bounds.h 3))
      (toI32 (umul i.bounds.w 3)) i.bounds.h 0 0 0 0
    let r ← si (res * 100)
    if ar = 0 then .ub else return (Int.tdiv r ar).toNat

end Ppocr

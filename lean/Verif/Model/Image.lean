import Verif.Basic

/-!
# Images

Model of `src/ppocr/image/{image,coordinate,pixel}.{hpp,cpp}`.
-/

namespace Ppocr

/-- `using Pixel = char` (pixel.hpp L24).  A `char` is represented by its byte;
where the code compares `char`s as signed numbers the model converts explicitly. -/
abbrev Pixel := UInt8

/-- The byte `'x'`. -/
abbrev chX : Pixel := 120
/-- The byte `'-'`. -/
abbrev chDash : Pixel := 45

/-- `is_pix_letter` (pixel.hpp L26-27). -/
def isLetter (p : Pixel) : Bool := p == chX

/-- `struct Bounds` (coordinate.hpp L50-76). -/
structure Bounds where
  w : Nat
  h : Nat
  deriving Repr, DecidableEq

/-- `Bounds::area` (coordinate.hpp L59): a 32-bit product. -/
def Bounds.area (b : Bounds) : Nat := umul b.w b.h

/-- `Bounds::contains` (coordinate.hpp L63-66). -/
def Bounds.contains (b : Bounds) (x y : Nat) : Bool := decide (x < b.w) && decide (y < b.h)

/-- `struct Image` (image.hpp L37-93): the bounds and the pixel buffer `data_`.
The length of the buffer is not stored by the code; here it is the length of `data`. -/
structure Image where
  bounds : Bounds
  data : List Pixel
  deriving Repr, DecidableEq

/-- The invariant every image built by the code is meant to satisfy: the buffer has
`width * height` cells and this number fits in `unsigned`. -/
structure Image.WF (i : Image) : Prop where
  len : i.data.length = i.bounds.w * i.bounds.h
  small : i.bounds.w * i.bounds.h < W32
  w_lt : i.bounds.w < W32
  h_lt : i.bounds.h < W32

/-- `Image::to_size_t` (image.hpp L77-80), 32-bit. -/
def Image.toSizeT (i : Image) (x y : Nat) : Nat := uadd (umul y i.bounds.w) x

/-- `Image::data(Index)` (image.hpp L66-70): offset of the pixel, guarded by an assert. -/
def Image.dataAt (i : Image) (x y : Nat) : Res Nat := do
  assert (decide (i.toSizeT x y < umul i.bounds.w i.bounds.h))
  return i.toSizeT x y

/-- `Image::operator[]` (image.hpp L55-59). -/
def Image.get (i : Image) (x y : Nat) : Res Pixel := do
  let o ← i.dataAt x y
  rd i.data o

/-- Rows `y .. h-1` of the loop of `section` (image.cpp L39-42); `d` is the source offset,
the first argument the number of rows still to copy. -/
def sectionRows (src : List Pixel) (stride w : Nat) : Nat → Nat → Out Pixel → Res (Out Pixel)
  | 0, _, o => .ok o
  | n + 1, d, o => do
    let o ← copyTo src d w o
    sectionRows src stride w n (d + stride) o

/-- Free function `section` (image.cpp L36-43). -/
def sectionInto (src : Image) (o : Out Pixel) (x y : Nat) (b : Bounds) : Res (Out Pixel) := do
  let d ← src.dataAt x y
  sectionRows src.data src.bounds.w b.w b.h d o

/-- An image whose buffer may have uninitialised cells. -/
structure RawImage where
  bounds : Bounds
  cells : List (Option Pixel)
  deriving Repr, DecidableEq

/-- View a raw image as an image; only possible if every cell was written. -/
def RawImage.toImage (r : RawImage) : Option Image :=
  (r.cells.mapM id).map fun d => { bounds := r.bounds, data := d }

/-- An image made from a buffer whose cells are all written.  Leaving a cell uninitialised
would make later reads undefined, so this is reported as `ub`. -/
def Out.toImage (o : Out Pixel) (b : Bounds) : Res Image :=
  if o.done.length = o.cap then .ok { bounds := b, data := o.done } else .ub

/-- `Image::section` (image.cpp L45-52). -/
def Image.section (i : Image) (x y : Nat) (b : Bounds) : Res Image := do
  assert (i.bounds.contains x y)
  assert (decide (uadd b.w x ≤ i.bounds.w) && decide (uadd b.h y ≤ i.bounds.h))
  let o ← sectionInto i { cap := b.area, done := [] } x y b
  o.toImage b

/-- Inner loop of `rotate90` (image.cpp L58-60): `for (; d != e; d += width) *data++ = *d`.
The first argument bounds the number of iterations; running out of it means the pointer
comparison never succeeds. -/
def rotCol (src : List Pixel) (w e : Nat) : Nat → Nat → Out Pixel → Res (Out Pixel)
  | 0, _, _ => .diverge
  | fuel + 1, d, o =>
    if d = e then .ok o
    else do
      let v ← rd src d
      let o ← o.push v
      rotCol src w e fuel (d + w) o

/-- Outer loop of `rotate90` (image.cpp L56-61), `x` counting down to 0.
The pointer `e = d + area` may lie past the end of the buffer; only reads and writes
through pointers are checked here, not the mere formation of the address. -/
def rotLoop (src : Image) : Nat → Out Pixel → Res (Out Pixel)
  | 0, o => .ok o
  | x + 1, o => do
    let o ← rotCol src.data src.bounds.w (x + src.bounds.area) (src.bounds.area + 1) x o
    rotLoop src x o

/-- `Image::rotate90` (image.cpp L64-69). -/
def Image.rotate90 (i : Image) : Res Image := do
  let o ← rotLoop i i.bounds.w { cap := i.bounds.area, done := [] }
  o.toImage { w := i.bounds.h, h := i.bounds.w }

/-- `Image::clone` (image.cpp L71-74). -/
def Image.clone (i : Image) : Res Image := i.section 0 0 i.bounds

/-- `std::equal(a, a + n, b)` over pointers at offset `i`. -/
def equalN (a b : List Pixel) : Nat → Nat → Res Bool
  | 0, _ => .ok true
  | n + 1, i => do
    let x ← rd a i
    let y ← rd b i
    if x = y then equalN a b n (i + 1) else return false

/-- `operator==(Image, Image)` (image.cpp L76-81); `data_end()` is `data() + width()*height()`
(image.hpp L72-75). -/
def Image.eq (a b : Image) : Res Bool :=
  if a.bounds.w = b.bounds.w then
    if a.bounds.h = b.bounds.h then
      equalN a.data b.data (umul a.bounds.w a.bounds.h) 0
    else .ok false
  else .ok false

end Ppocr

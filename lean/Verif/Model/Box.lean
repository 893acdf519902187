import Verif.Model.Image

/-!
# Cutting the line into characters

Model of `src/ppocr/box_char/box.hpp`, `make_box_character.cpp` and of the segmentation loop of
`main/ocr2_extract_text.cpp` / `main/write_glyphs.cpp` / `main/box.cpp`.

Pointers into the image are offsets; a loop whose exit is a pointer or counter comparison carries a
fuel argument and `diverge` when it runs out.
-/

namespace Ppocr

/-- `struct Box` (box.hpp L29-66). -/
structure Box where
  x : Nat
  y : Nat
  w : Nat
  h : Nat
  deriving Repr, DecidableEq

/-- `Box::operator bool` (box.hpp L56). -/
def Box.truthy (b : Box) : Bool := decide (b.w ≠ 0) && decide (b.h ≠ 0)

/-- `Box::bottom` (box.hpp L48), 32-bit. -/
def Box.bottom (b : Box) : Nat := usub (uadd b.y b.h) 1
/-- `Box::bounds`. -/
def Box.bounds (b : Box) : Bounds := ⟨b.w, b.h⟩

/-- `Box::operator==` (box.hpp L58-59): compares the bounds only. -/
def Box.eq (a b : Box) : Bool := decide (a.w = b.w) && decide (a.h = b.h)

/-- `utils::horizontal_empty` (make_box_character.cpp L26-33); the first argument is `e - d`. -/
def horizontalEmpty (data : List Pixel) : Nat → Nat → Res Bool
  | 0, _ => .ok true
  | n + 1, d => do
    let p ← rd data d
    if isLetter p then return false else horizontalEmpty data n (d + 1)

/-- Loop of `utils::vertical_empty` (make_box_character.cpp L36-40). -/
def verticalEmptyLoop (data : List Pixel) (w e : Nat) : Nat → Nat → Res Bool
  | 0, _ => .diverge
  | fuel + 1, d =>
    if d = e then .ok true
    else do
      let p ← rd data d
      if isLetter p then return false else verticalEmptyLoop data w e fuel (d + w)

/-- `utils::vertical_empty` (make_box_character.cpp L35-42). -/
def verticalEmpty (data : List Pixel) (d : Nat) (b : Bounds) : Res Bool :=
  verticalEmptyLoop data b.w (d + b.area) (b.area + 1) d

/-- Short-circuit `c && is_pix_letter(*p)`. -/
def andLetter (c : Bool) (data : List Pixel) (p : Nat) : Res Bool :=
  if c then do
    let v ← rd data p
    return isLetter v
  else .ok false

/-- The condition of the lambda of `make_box_character` (make_box_character.cpp L64-68): the pixel at
`d` is a letter and has a letter neighbour (8-adjacency) in the next column.  `d-w+1 >= data`
reads `w ≤ d+1` on offsets. -/
def joinedRight (data : List Pixel) (w e d : Nat) : Res Bool := do
  let p ← rd data d
  if isLetter p then do
    let a ← andLetter (decide (d + 1 ≠ e)) data (d + 1)
    if a then return true
    else
      let b ← andLetter (decide (w ≤ d + 1)) data (d + 1 - w)
      if b then return true
      else andLetter (decide (d + w + 1 < e)) data (d + w + 1)
  else return false

/-- Loop of the lambda of `make_box_character` (make_box_character.cpp L62-72): is no pixel of this
column joined to the next column? -/
def columnCutLoop (data : List Pixel) (w e : Nat) : Nat → Nat → Res Bool
  | 0, _ => .diverge
  | fuel + 1, d =>
    if d = e then .ok true
    else do
      let j ← joinedRight data w e d
      if j then return false else columnCutLoop data w e fuel (d + w)

/-- The lambda of `make_box_character` (make_box_character.cpp L62-73). -/
def columnCut (data : List Pixel) (d w h : Nat) : Res Bool :=
  columnCutLoop data w (d + umul w h) (umul w h + 1) d

/-- First loop (make_box_character.cpp L51-56): skip blank columns. -/
def skipBlankCols (data : List Pixel) (b : Bounds) : Nat → Nat → Nat → Res (Nat × Nat)
  | 0, _, _ => .diverge
  | fuel + 1, x, d =>
    if x < b.w then do
      let e ← verticalEmpty data d b
      if e then skipBlankCols data b fuel (x + 1) (d + 1) else return (x, d)
    else .ok (x, d)

/-- Second loop (make_box_character.cpp L60-77): extend over joined columns. -/
def extendCols (data : List Pixel) (b : Bounds) : Nat → Nat → Nat → Res Nat
  | 0, _, _ => .diverge
  | fuel + 1, w, d =>
    if uadd w 1 < b.w then do
      let cut ← columnCut data d b.w b.h
      if cut then return (uadd w 1) else extendCols data b fuel (uadd w 1) (d + 1)
    else .ok w

/-- Third loop (make_box_character.cpp L83-88): skip blank rows from the top. -/
def skipBlankRows (data : List Pixel) (b : Bounds) (w : Nat) : Nat → Nat → Nat → Res Nat
  | 0, _, _ => .diverge
  | fuel + 1, y, d =>
    if y < b.h then do
      let e ← horizontalEmpty data w d
      if e then skipBlankRows data b w fuel (y + 1) (d + b.w) else return y
    else .ok y

/-- Fourth loop (make_box_character.cpp L93-98): skip blank rows from the bottom.  `h` is the value
before the pre-decrement.  Moving the pointer before the start of the buffer is undefined. -/
def skipBottomRows (data : List Pixel) (b : Bounds) (w y : Nat) : Nat → Nat → Nat → Res Nat
  | 0, _, _ => .diverge
  | fuel + 1, h, d =>
    let h := usub h 1
    if y < h then
      if d < b.w then .ub
      else do
        let e ← horizontalEmpty data w (d - b.w)
        if e then skipBottomRows data b w y fuel h (d - b.w) else return h
    else .ok h

/-- The part of `make_box_character` that finds the rows of the box, once its first column `x` and
its width `w` are known (make_box_character.cpp L80-103). -/
def boxRows (i : Image) (y0 : Nat) (b : Bounds) (x w : Nat) : Res Box := do
  let d ← i.dataAt x y0
  let y ← skipBlankRows i.data b w (b.h + 1) y0 d
  let h ← skipBottomRows i.data b w y (b.h + 1) b.h (i.toSizeT x b.h)
  return ⟨x, y, w, uadd (usub h y) 1⟩

/-- `make_box_character` (make_box_character.cpp L46-103).  The starting row is always 0 in the
callers but is kept as a parameter. -/
def makeBox (i : Image) (x0 y0 : Nat) (b : Bounds) : Res Box := do
  let d ← i.dataAt x0 y0
  let (x, d) ← skipBlankCols i.data b (b.w + 1) x0 d
  let w ← extendCols i.data b (b.w + 1) x d
  boxRows i y0 b x (usub w x)

/-- The segmentation loop (main/ocr2_extract_text.cpp L109-167, main/write_glyphs.cpp L67-88,
main/box.cpp L52-59): the boxes visited, starting at column `x`. -/
def segmentFrom (i : Image) : Nat → Nat → Res (List Box)
  | 0, _ => .diverge
  | fuel + 1, x => do
    let b ← makeBox i x 0 i.bounds
    if b.truthy then do
      let r ← segmentFrom i fuel (uadd b.x b.w)
      return b :: r
    else return []

/-- The whole loop. -/
def segment (i : Image) : Res (List Box) := segmentFrom i (i.bounds.w + 1) 0

end Ppocr

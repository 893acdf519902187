import Verif.Model.Image

/-!
# alternations

Model of `src/ppocr/strategies/alternations.cpp` and of the ranges of `image.hpp` it uses.
A pixel getter is a function from the offset of a pixel to the `bool` it answers.
-/

namespace Ppocr

/-- `NormalPixelGet::operator()` (image.hpp L106-107). -/
def normalPixel (data : List Pixel) (p : Nat) : Res Bool := do
  let v ← rd data p
  return isLetter v

/-- Loop of `AnyPixelGet::operator()` (image.hpp L181-186). -/
def anyPixelLoop (data : List Pixel) (step e : Nat) : Nat → Nat → Res Bool
  | 0, _ => .diverge
  | fuel + 1, p =>
    if p = e then .ok false
    else do
      let v ← rd data p
      if isLetter v then return true else anyPixelLoop data step e fuel (p + step)

/-- `AnyPixelGet::operator()` (image.hpp L179-187); `h_*step_` is a 32-bit product. -/
def anyPixel (data : List Pixel) (h step p : Nat) : Res Bool :=
  anyPixelLoop data step (p + umul h step) (h + 1) p

/-- The loop of `rng::next_alternation` (image.hpp L237-239) with `x` the first value. -/
def skipSame (get : Nat → Res Bool) (last : Nat) (x : Bool) : Nat → Nat → Res Nat
  | 0, _ => .diverge
  | fuel + 1, it =>
    if it = last then .ok it
    else do
      let b ← get it
      if b = x then skipSame get last x fuel (it + 1) else return it

/-- The loop of `make_alternations` (alternations.cpp L38-40) with `rng::next_alternation`
(image.hpp L233-241) inlined. -/
def altLoop (get : Nat → Res Bool) (last : Nat) : Nat → Nat → Nat → Res Nat
  | 0, _, _ => .diverge
  | fuel + 1, it, count => do
    let x ← get it
    let it ← skipSame get last x (last - it + 1) it
    if it = last then return count else altLoop get last fuel it (uadd count 1)

/-- `make_alternations` (alternations.cpp L29-43) over the `w` cells that start at `{0, y}`, with the
constructor of `HorizontalRange` (image.hpp L145-151). -/
def makeAlternations (i : Image) (y w : Nat) (get : Nat → Res Bool) : Res (Bool × Nat) := do
  let b := i.toSizeT 0 y
  assert (decide (b ≤ umul i.bounds.w i.bounds.h))
  let first ← get b
  let count ← altLoop get (b + w) (w + 1) b 1
  return (first, count)

/-- `make_alternations(img, {0, y}, bnd.width())`: one row. -/
def altRow (i : Image) (y : Nat) : Res (Bool × Nat) :=
  makeAlternations i y i.bounds.w (normalPixel i.data)

/-- `make_alternations(img, {0, y}, Bounds(bnd.width(), h))`: `h` rows at once. -/
def altRows (i : Image) (y h : Nat) : Res (Bool × Nat) :=
  makeAlternations i y i.bounds.w (anyPixel i.data h i.bounds.w)

/-- The first entry (alternations.cpp L54-58). -/
def altFirst (i : Image) : Res (Bool × Nat) :=
  if i.bounds.h < 2 then .ok (false, 0) else altRow i (usub i.bounds.h 2 / 3)

/-- `alternations::load` (alternations.cpp L46-76). -/
def alternationsLoad (i r : Image) : Res (List (Bool × Nat)) := do
  let h := i.bounds.h
  let a0 ← altFirst i
  let a1 ← altRow i (usub (umul h 2) 1 / 3)
  let a2 ← altRows i 0 (h / 3)
  let a3 ← altRows i (usub h (h / 3)) (h / 3)
  let h := r.bounds.h
  let a4 ← altRow r (usub h 1 / 2)
  let a5 ← altRows r (usub h (h / 3)) (h / 3)
  let a6 ← altRows r 0 (h / 3)
  return [a0, a1, a2, a3, a4, a5, a6]

end Ppocr

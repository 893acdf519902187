import Verif.Model.Image

/-!
# The pixels of the current letter

`src/ppocr/ocr2/image_context.hpp`: one buffer, twice as large as the letter, shared by three `unique_ptr`s. The memory is
a list of blocks, `none` for a block that was deleted; a `unique_ptr` is the place in memory it points to. Deleting a
block twice, or at another place than its begin, is undefined, as is any access outside a live block.
-/

namespace Ppocr

structure Ptr where
  block : Nat
  off : Nat
  deriving Repr, DecidableEq

/-- `std::unique_ptr<Pixel[]>` (`image.hpp` L34); `none` is the null pointer. -/
abbrev UPtr := Option Ptr

/-- The cells of each block, `none` for one not yet written. -/
abbrev Heap := List (Option (List (Option Pixel)))

/-- `new Pixel[n]`. -/
def Heap.alloc (h : Heap) (n : Nat) : Heap × Ptr := (h ++ [some (List.replicate n none)], ⟨h.length, 0⟩)

/-- `delete[] p`. -/
def Heap.free (h : Heap) : UPtr → Res Heap
  | none => .ok h
  | some p =>
    if p.off = 0 then
      match h[p.block]? with
      | some (some _) => .ok (h.set p.block none)
      | _ => .ub
    else .ub

/-- The cells from a place to the end of its block; nothing is behind a null pointer. -/
def Heap.cells (h : Heap) : UPtr → Res (List (Option Pixel))
  | none => .ok []
  | some p =>
    match h[p.block]? with
    | some (some l) => if p.off ≤ l.length then .ok (l.drop p.off) else .ub
    | _ => .ub

/-- `p + n`; it is undefined behind the end of the block. -/
def Heap.plus (h : Heap) (p : UPtr) (n : Nat) : Res UPtr := do
  let l ← h.cells p
  if n ≤ l.length then .ok (p.map fun p => ⟨p.block, p.off + n⟩) else .ub

/-- Pixels written from a place on, of which there are enough cells. -/
def Heap.put (h : Heap) (p : UPtr) (v : List Pixel) : Heap :=
  match p with
  | none => h
  | some p =>
    match h[p.block]? with
    | some (some l) => h.set p.block (some (l.take p.off ++ v.map some ++ l.drop (p.off + v.length)))
    | _ => h

/-- `n` pixels read from a place on. -/
def Heap.load (h : Heap) (p : UPtr) (n : Nat) : Res (List Pixel) := do
  let l ← h.cells p
  if n ≤ l.length then
    match (l.take n).mapM id with
    | some v => .ok v
    | none => .ub
  else .ub

/-- `Image`: its bounds and its `unique_ptr`. -/
structure ImageRef where
  bounds : Bounds
  data : UPtr
  deriving Repr, DecidableEq

/-- The picture an image shows. -/
def ImageRef.view (h : Heap) (i : ImageRef) : Res Image := do
  let v ← h.load i.data i.bounds.area
  return ⟨i.bounds, v⟩

/-- `i = Image(b, p)`: the pixels that `i` owned are deleted. -/
def ImageRef.assign (h : Heap) (i : ImageRef) (b : Bounds) (p : UPtr) : Res (Heap × ImageRef) := do
  let h ← h.free i.data
  return (h, ⟨b, p⟩)

/-- `i.release().release()`: nothing is deleted, `i` owns nothing any more. -/
def ImageRef.release (i : ImageRef) : ImageRef := ⟨i.bounds, none⟩

/-- `image_context.hpp` L51-55. -/
structure Ctx where
  data : UPtr
  cap : Nat
  img : ImageRef
  img90 : ImageRef
  deriving Repr, DecidableEq

/-- A new context. -/
def Ctx.init : Ctx := ⟨none, 0, ⟨⟨0, 0⟩, none⟩, ⟨⟨0, 0⟩, none⟩⟩

/-- `image_context.hpp` L61-64. -/
def Ctx.grow (h : Heap) (c : Ctx) (n : Nat) : Res (Heap × Ctx) :=
  if n > c.cap then do
    let (h, p) := h.alloc n
    let h ← h.free c.data
    return (h, { c with data := some p, cap := n })
  else .ok (h, c)

/-- `image_context.hpp` L58-66 `reserve`. -/
def Ctx.reserve (h : Heap) (c : Ctx) (b : Bounds) : Res (Heap × Ctx) := do
  let n := umul b.area 2
  let c := { c with img := c.img.release }
  let (h, c) ← c.grow h n
  let (h, i) ← c.img.assign h b c.data
  return (h, { c with img := i })

/-- `image_context.hpp` L28-33 `img`; the maker writes pixels from the given place on. -/
def Ctx.doImg (h : Heap) (c : Ctx) (b : Bounds) (maker : Out Pixel → Res (Out Pixel)) : Res (Heap × Ctx) := do
  let (h, c) ← c.reserve h b
  let l ← h.cells c.data
  let o ← maker ⟨l.length, []⟩
  return (h.put c.data o.done, c)

/-- `image_context.hpp` L35-43 `img90`. The pixels of `img_` are read before the first one is written: a pixel of `img_`
outside of its area, which could have been overwritten meanwhile, would be undefined here. -/
def Ctx.doImg90 (h : Heap) (c : Ctx) : Res (Heap × Ctx) := do
  let c := { c with img90 := c.img90.release }
  let p ← h.plus c.data c.img.bounds.area
  let (h, i) ← c.img90.assign h ⟨c.img.bounds.h, c.img.bounds.w⟩ p
  let c := { c with img90 := i }
  let src ← c.img.view h
  let l ← h.cells p
  let o ← rotLoop src src.bounds.w ⟨l.length, []⟩
  return (h.put p o.done, c)

/-- `image_context.hpp` L45-48 and the members destroyed in the reverse order. -/
def Ctx.destroy (h : Heap) (c : Ctx) : Res Heap := do
  let c := { c with img := c.img.release }
  let c := { c with img90 := c.img90.release }
  let h ← h.free c.img90.data
  let h ← h.free c.img.data
  h.free c.data

/-- The calls a user can make. -/
inductive Call where
  | img (b : Bounds) (maker : Out Pixel → Res (Out Pixel))
  | img90

/-- A sequence of calls. -/
def Ctx.run (h : Heap) (c : Ctx) : List Call → Res (Heap × Ctx)
  | [] => .ok (h, c)
  | .img b maker :: cs => do
    let (h, c) ← c.doImg h b maker
    Ctx.run h c cs
  | .img90 :: cs => do
    let (h, c) ← c.doImg90 h
    Ctx.run h c cs

end Ppocr

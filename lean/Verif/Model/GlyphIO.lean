import Verif.Model.Stream
import Verif.Model.Image

/-!
# Glyph files as the learning tools see them

`src/ppocr/loader2/glyphs_loader.{hpp,cpp}`, `src/ppocr/loader2/image_io.cpp` and the stream operators of
`src/ppocr/image/coordinate.cpp`. Bytes in a stream are numbers; pixels are `UInt8`.
-/

namespace Ppocr

/-- The greatest `unsigned`. -/
def maxU : Nat := W32 - 1

/-- `loader2::View`, `glyphs_loader.hpp` L30-34. -/
structure LView where
  word : List Nat
  font : List Nat
  info : Nat
  deriving Repr, DecidableEq

/-- `loader2::Glyph`, `glyphs_loader.hpp` L54-57. -/
structure LGlyph where
  img : Image
  views : List LView
  deriving Repr, DecidableEq

/-- `operator<<(std::ostream &, Bounds const &)`, `coordinate.cpp` L30-32. -/
def boundsWrite (b : Bounds) : List Nat := showNat b.w ++ 32 :: showNat b.h

/-- `operator>>(std::istream &, Bounds &)`, `coordinate.cpp` L42-48. `w` and `h` are not initialised, but only
used when both extractions succeed. -/
def boundsRead (s : IS) (old : Bounds) : Bounds × IS :=
  let (w, s) := s.uint maxU 0
  let (h, s) := s.uint maxU 0
  (if s.fail then old else ⟨w, h⟩, s)

/-- `write_img`, `image_io.cpp` L38-42. -/
def imgWrite (i : Image) : Res (List Nat) :=
  if i.bounds.area ≤ i.data.length then
    .ok (boundsWrite i.bounds ++ 32 :: (i.data.take i.bounds.area).map UInt8.toNat)
  else .ub

/-- `read_img`, `image_io.cpp` L27-36. When fewer than `area` bytes are left the code assigns an image whose last
pixels are not initialised; the only caller drops it then, the model leaves the old image. -/
def imgRead (s : IS) (old : Image) : Image × IS :=
  let (b, s) := boundsRead s ⟨0, 0⟩
  if s.fail then (old, s)
  else
    let (l, s) := s.bump.read b.area
    if s.fail then (old, s) else (⟨b, l.map UInt8.ofNat⟩, s)

/-- `operator<<` of a `View` and the newline of its caller, `glyphs_loader.cpp` L60-62, L67. -/
def viewWrite (v : LView) : List Nat := v.word ++ 32 :: (v.font ++ 32 :: (showNat v.info ++ [10]))

/-- `operator<<` of `Views`, `glyphs_loader.cpp` L64-70. -/
def viewsWrite (vs : List LView) : List Nat := showNat vs.length ++ 10 :: vs.flatMap viewWrite

/-- `operator<<` of a `Glyph`, `glyphs_loader.cpp` L72-74. -/
def glyphWrite (g : LGlyph) : Res (List Nat) := do
  let t ← imgWrite g.img
  return t ++ 10 :: viewsWrite g.views

/-- `operator<<` of `Glyphs`, `glyphs_loader.cpp` L76-83; writing does not fail. -/
def glyphsWrite : List LGlyph → Res (List Nat)
  | [] => .ok []
  | g :: gs => do
    let t ← glyphWrite g
    let r ← glyphsWrite gs
    return t ++ r

/-- `operator>>` of a `View`, `glyphs_loader.cpp` L27-29. -/
def viewRead (s : IS) (old : LView) : LView × IS :=
  let (w, s) := s.str old.word
  let (f, s) := s.str old.font
  let (i, s) := s.uint maxU old.info
  (⟨w, f, i⟩, s)

/-- `while (i < n && (is >> views[i])) ++i;`, `glyphs_loader.cpp` L38-40, on the elements not yet read. -/
def viewsLoop : List LView → IS → List LView × IS
  | [], s => ([], s)
  | v :: vs, s =>
    let r := viewRead s v
    if r.2.fail then (r.1 :: vs, r.2)
    else
      let q := viewsLoop vs r.2
      (r.1 :: q.1, q.2)

/-- `std::vector::resize`. -/
def resizeTo {α : Type} (d : α) (n : Nat) (l : List α) : List α := l.take n ++ List.replicate (n - l.length) d

/-- `operator>>` of `Views`, `glyphs_loader.cpp` L31-42. -/
def viewsRead (s : IS) (old : List LView) : List LView × IS :=
  let r := s.uint maxU 0
  if r.2.fail then (old, r.2)
  else viewsLoop (resizeTo ⟨[], [], 0⟩ r.1 old) r.2

/-- `operator>>` of a `Glyph`, `glyphs_loader.cpp` L44-49. -/
def glyphRead (s : IS) (old : LGlyph) : LGlyph × IS :=
  let r := imgRead s old.img
  if r.2.fail then (⟨r.1, old.views⟩, r.2)
  else
    let q := viewsRead r.2 old.views
    (⟨r.1, q.1⟩, q.2)

/-- The loop of `operator>>` of `Glyphs`, `glyphs_loader.cpp` L53-55. The image of the variable `glyph` is moved
away; only its views are kept for the next pass. -/
def glyphsLoop : Nat → IS → List LView → List LGlyph → Res (List LGlyph × IS)
  | 0, _, _, _ => .diverge
  | fuel + 1, s, old, acc =>
    let r := glyphRead s ⟨⟨⟨0, 0⟩, []⟩, old⟩
    if r.2.fail then .ok (acc, r.2)
    else glyphsLoop fuel r.2 r.1.views (acc ++ [r.1])

/-- `operator>>` of `Glyphs`, `glyphs_loader.cpp` L51-57. -/
def glyphsRead (s : IS) (old : List LGlyph) : Res (List LGlyph × IS) := glyphsLoop (s.rest.length + 1) s [] old

end Ppocr

import Verif.Model.GlyphIO
import Verif.Model.ImageCompare
import Verif.Model.Std
import Verif.Model.Trie

/-!
# The program `normalize_glyphs`

`main/normalize_glyphs.cpp`: merge the glyphs with the same image.
-/

namespace Ppocr

/-- A normal return. -/
def Res.isOk {α : Type} : Res α → Bool
  | .ok _ => true
  | _ => false

/-- A normal return of `true`. -/
def Res.isTrue : Res Bool → Bool
  | .ok b => b
  | _ => false

/-- `std::sort` with a comparator that is not defined everywhere: it is called on pairs of elements of the range, in
an unknown order, so all of them have to be defined. -/
def sortRes {α : Type} (S : StdSort) (lt : α → α → Res Bool) (l : List α) : Res (List α) :=
  if l.all fun a => l.all fun b => (lt a b).isOk then
    .ok ((S.sort (fun a b : { x // x ∈ l } => (lt a.1 b.1).isTrue) l.attach).map Subtype.val)
  else .ub

/-- `std::adjacent_find`: the position of the first element that equals the next one, else the end. -/
def adjacentFind {α : Type} (eq : α → α → Res Bool) : List α → Res Nat
  | [] => .ok 0
  | [_] => .ok 1
  | a :: b :: l => do
    let e ← eq a b
    if e then return 0
    else do
      let k ← adjacentFind eq (b :: l)
      return k + 1

/-- `operator<(View, View)`, `glyphs_loader.hpp` L40-48. -/
def viewLt (a b : LView) : Bool :=
  if a.word ≠ b.word then wordLt a.word b.word
  else if a.font ≠ b.font then wordLt a.font b.font
  else decide (a.info < b.info)

/-- The loop, `normalize_glyphs.cpp` L69-89, on the glyphs from `first` on; it returns the glyphs written from `first2`
on. The writes are at or before `first`, so they do not disturb the search (L70) nor the later glyphs. When `first2` is
`first` the image is moved to itself, which keeps it (`std::unique_ptr`). -/
def mergeLoop (S : StdSort) : Nat → List LGlyph → Res (List LGlyph)
  | _, [] => .ok []
  | 0, _ :: _ => .diverge
  | fuel + 1, g :: rest => do
    let pos ← partitionPoint (fun k => do
      let x ← rd rest k
      let b ← imageLess g.img x.img
      return !b) (rest.length + 1) 0 rest.length
    let vs ← uniqueBy (fun a b => .ok (decide (a = b)))
      (S.sort viewLt (g.views ++ (rest.take pos).flatMap LGlyph.views))
    let r ← mergeLoop S fuel (rest.drop pos)
    return ⟨g.img, vs⟩ :: r

/-- `normalize_glyphs.cpp` L59-90, on the glyphs read. -/
def normalizeGlyphs (S : StdSort) (gs : List LGlyph) : Res (List LGlyph) := do
  let s ← sortRes S (fun a b => imageLess a.img b.img) gs
  let k ← adjacentFind (fun a b => a.img.eq b.img) s
  let r ← mergeLoop S s.length (s.drop k)
  return s.take k ++ r

/-- The files of the command line, `normalize_glyphs.cpp` L44-57: the glyphs, or the exit status. `none` is a file that
does not open. -/
def readGlyphFiles : List (Option (List Nat)) → List LGlyph → Res (Except Nat (List LGlyph))
  | [], gs => .ok (.ok gs)
  | none :: _, _ => .ok (.error 2)
  | some t :: fs, gs => do
    let r ← glyphsRead (IS.of t) gs
    if r.2.eof then readGlyphFiles fs r.1 else return .error 5

/-- `main`, `normalize_glyphs.cpp` L31-94: the exit status and what is written on `std::cout`. -/
def normalizeMain (S : StdSort) (files : List (Option (List Nat))) : Res (Nat × List Nat) :=
  if files = [] then .ok (1, [])
  else do
    let r ← readGlyphFiles files []
    match r with
    | .error e => return (e, [])
    | .ok gs => do
      let out ← normalizeGlyphs S gs
      let t ← glyphsWrite out
      return (0, t)

end Ppocr

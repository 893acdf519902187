import Verif.Model.Cache
import Verif.Model.ImageContext
import Verif.Model.Ocr2
import Verif.Model.Filter
import Verif.Model.Text

/-!
# The program `ocr2_extract_text`

`main/ocr2_extract_text.cpp` once its files are read: the loop over the letters of a line, the filters, the text. What is
printed besides the result is left out, but the reads it makes are not. The timers and the cached contexts (`Model/Datas.lean`,
C26) are left out.
-/

namespace Ppocr

/-- The variables of the loop, `ocr2_extract_text.cpp` L93-114. The candidate lists owned by the nodes of the cache are in
`st`, in the order of their creation; `ambiguous` is the list `refs` of the places of the lists it refers to. -/
structure Line (P : Type) where
  heap : Heap
  ctx : Ctx
  cache : List (Image × Nat)
  st : List (List View)
  refs : List Nat
  spaces : List Nat
  nth : Nat
  boxes : List Box
  tmp : List (Nat × P)

/-- Before the loop. -/
def Line.init (P : Type) : Line P := ⟨[], Ctx.init, [], [], [], [], 0, [], []⟩

/-- The words printed for a new letter, `ocr2_extract_text.cpp` L157-159. -/
def printWords (g : RGlyphs) : List View → Res Unit
  | [] => .ok ()
  | v :: vs => do
    let _ ← getWord g.buf v.word
    printWords g vs

section
variable {P : Type} [Dbl P]

/-- A picture that is not in the cache, `ocr2_extract_text.cpp` L134-160. -/
def newLetter (s : Setup P) (g : RGlyphs) (l : Line P) : Res (Line P) := do
  let (h, c) ← l.ctx.doImg90 l.heap
  let img ← c.img.view h
  let img90 ← c.img90.view h
  let o ← computeImage s l.tmp img img90
  let key ← img.clone
  let (m, r) ← cacheEmplace key l.st.length l.cache
  printWords g o.views
  return { l with
    heap := h, ctx := c, tmp := o.tmp, cache := m, refs := l.refs ++ [r]
    st := if r = l.st.length then l.st ++ [o.views] else l.st }

/-- The cache is asked for the picture, `ocr2_extract_text.cpp` L130-161. -/
def lookLetter (s : Setup P) (g : RGlyphs) (l : Line P) : Res (Line P) := do
  let img ← l.ctx.img.view l.heap
  let hit ← cacheFind img l.cache
  match hit with
  | some r => return { l with refs := l.refs ++ [r] }
  | none => newLetter s g l

/-- The body of the loop, `ocr2_extract_text.cpp` L121-166. -/
def letterStep (s : Setup P) (g : RGlyphs) (i : Image) (x : Nat) (b : Box) (l : Line P) : Res (Line P) := do
  let (h, c) ← l.ctx.doImg l.heap b.bounds fun o => sectionInto i o b.x b.y b.bounds
  let l ← lookLetter s g { l with
    heap := h, ctx := c, nth := uadd l.nth 1
    spaces := if uadd x 4 < b.x then l.spaces ++ [l.nth] else l.spaces }
  return { l with boxes := l.boxes ++ [b] }

/-- The loop, `ocr2_extract_text.cpp` L116-167. -/
def lineLoop (s : Setup P) (g : RGlyphs) (i : Image) : Nat → Nat → Line P → Res (Line P)
  | 0, _, _ => .diverge
  | fuel + 1, x, l => do
    let b ← makeBox i x 0 i.bounds
    if b.truthy then do
      let l ← letterStep s g i x b l
      lineLoop s g i fuel (uadd b.x b.w) l
    else return l

/-- The lists `ambiguous` refers to. -/
def derefs (st : List (List View)) : List Nat → Res (List (List View))
  | [] => .ok []
  | r :: rs => do
    let v ← rd st r
    let vs ← derefs st rs
    return v :: vs

/-- What is printed at the end. -/
structure Answer where
  text : List Nat
  unrecognized : Nat
  count : Nat
  deriving Repr, DecidableEq

/-- `ocr2_extract_text.cpp` L109-197: everything once the files are read. -/
def extractText (s : Setup P) (g : RGlyphs) (infos : List WordInfo) (E : List FNode) (i : Image) : Res Answer := do
  let l ← lineLoop s g i (i.bounds.w + 1) 0 (Line.init P)
  let st ← filterByLines infos l.boxes l.refs l.st
  let (_, st) ← filterByFont l.refs st
  let amb ← derefs st l.refs
  let (text, n) ← disambiguousWithDict g E amb (l.spaces ++ [amb.length])
  let _ ← l.ctx.destroy l.heap
  return ⟨text, n, amb.length⟩

end

end Ppocr

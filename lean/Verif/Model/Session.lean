import Verif.Model.Command

/-!
# What `ocr2_extract_text` prints

`main/ocr2_extract_text.cpp` once more, with everything it gives to `std::cout` (the timers go to `std::cerr` and are left
out). The reads and the order are those of `Model/ExtractText.lean` and `program`; the agreement is proved (C75).
-/

namespace Ppocr

/-- Running a piece of code that prints: what was printed, and the outcome. -/
structure Act (α : Type) where
  out : List Nat
  res : Res α
  deriving Repr, DecidableEq

/-- Sequencing: what was printed before an exception stays. -/
def Act.bind {α β : Type} (a : Act α) (f : α → Act β) : Act β :=
  match a.res with
  | .ok x => ⟨a.out ++ (f x).out, (f x).res⟩
  | .throw => ⟨a.out, .throw⟩
  | .abort => ⟨a.out, .abort⟩
  | .ub => ⟨a.out, .ub⟩
  | .diverge => ⟨a.out, .diverge⟩

instance : Monad Act where
  pure a := ⟨[], .ok a⟩
  bind := Act.bind

/-- `std::cout << t`. -/
def say (t : List Nat) : Act Unit := ⟨t, .ok ()⟩

/-- Code that prints nothing. -/
def mute {α : Type} (r : Res α) : Act α := ⟨[], r⟩

/-- A string literal. -/
def lit (s : String) : List Nat := s.toUTF8.toList.map UInt8.toNat

/-- The words of the candidates, `ocr2_extract_text.cpp` L158-160; `operator<<(std::ostream &, Glyphs::string const &)` is
`glyphs.cpp` L25-27. -/
def showWords (g : RGlyphs) : List View → Act Unit
  | [] => pure ()
  | v :: vs => do
    let w ← mute (getWord g.buf v.word)
    say (w ++ [32])
    showWords g vs

/-- The digits of a number behind trailing zeros that are dropped. -/
def dropZeros (l : List Nat) : List Nat := (l.reverse.dropWhile (· = 48)).reverse

/-- The scientific notation of `m * 10^(e-5)` with `m` of six digits. -/
def scientific (m e : Nat) : List Nat :=
  match showNat m with
  | [] => []
  | c :: cs =>
    (if dropZeros cs = [] then [c] else c :: 46 :: dropZeros cs) ++ [101, 43] ++ (if e < 10 then 48 :: showNat e else showNat e)

/-- `os << x` for a `double` that is the natural number `n`, with six significant digits: `%.6g`, rounded to even on a tie. -/
def showDouble (n : Nat) : List Nat :=
  if n < 10 ^ 6 then showNat n
  else
    let e := (showNat n).length - 1
    let unit := 10 ^ (e - 5)
    let q := n / unit
    let r := n % unit
    let m := if unit < 2 * r ∨ unit = 2 * r ∧ q % 2 = 1 then q + 1 else q
    if m = 10 ^ 6 then scientific (10 ^ 5) (e + 1) else scientific m e

/-- `double(unrecognized_count * 100) / (ambiguous.empty()? ambiguous.size() :1)`, `ocr2_extract_text.cpp` L194. Without
letters it is 0/0; how the result is spelt (`nan` or `-nan`) is the parameter `nan`. -/
def showRate (nan : List Nat) (a : Answer) : List Nat := if a.count = 0 then nan else showDouble (umul a.unrecognized 100)

/-- The end, `ocr2_extract_text.cpp` L190-196. -/
def showAnswer (nan : List Nat) (a : Answer) : List Nat :=
  lit " ## result: " ++ a.text ++ lit "\nunrecognized_count: " ++ showNat a.unrecognized ++ lit "\ncount: " ++
    showNat a.count ++ lit "\nunrecognized_rate: " ++ showRate nan a ++ [10]

section
variable {P : Type} [Dbl P]

/-- A picture that is not in the cache, `ocr2_extract_text.cpp` L135-162. -/
def newLetterOut (s : Setup P) (g : RGlyphs) (l : Line P) : Act (Line P) := do
  let pic ← mute (l.ctx.img.view l.heap)
  let t ← mute (imageShow pic)
  say t
  let (h, c) ← mute (l.ctx.doImg90 l.heap)
  let img ← mute (c.img.view h)
  let img90 ← mute (c.img90.view h)
  let o ← mute (computeImage s l.tmp img img90)
  let key ← mute img.clone
  let (m, r) ← mute (cacheEmplace key l.st.length l.cache)
  showWords g o.views
  say [10]
  return { l with
    heap := h, ctx := c, tmp := o.tmp, cache := m, refs := l.refs ++ [r]
    st := if r = l.st.length then l.st ++ [o.views] else l.st }

/-- The cache is asked for the picture, `ocr2_extract_text.cpp` L131-162. -/
def lookLetterOut (s : Setup P) (g : RGlyphs) (l : Line P) : Act (Line P) := do
  let img ← mute (l.ctx.img.view l.heap)
  let hit ← mute (cacheFind img l.cache)
  match hit with
  | some r => return { l with refs := l.refs ++ [r] }
  | none => newLetterOut s g l

/-- The body of the loop, `ocr2_extract_text.cpp` L121-166. -/
def letterStepOut (s : Setup P) (g : RGlyphs) (i : Image) (x : Nat) (b : Box) (l : Line P) : Act (Line P) := do
  let (h, c) ← mute (l.ctx.doImg l.heap b.bounds fun o => sectionInto i o b.x b.y b.bounds)
  let l ← lookLetterOut s g { l with
    heap := h, ctx := c, nth := uadd l.nth 1
    spaces := if uadd x 4 < b.x then l.spaces ++ [l.nth] else l.spaces }
  return { l with boxes := l.boxes ++ [b] }

/-- The loop, `ocr2_extract_text.cpp` L115-167. -/
def lineLoopOut (s : Setup P) (g : RGlyphs) (i : Image) : Nat → Nat → Line P → Act (Line P)
  | 0, _, _ => mute .diverge
  | fuel + 1, x, l => do
    let b ← mute (makeBox i x 0 i.bounds)
    if b.truthy then do
      let l ← letterStepOut s g i x b l
      lineLoopOut s g i fuel (uadd b.x b.w) l
    else return l

/-- `ocr2_extract_text.cpp` L109-197. -/
def extractTextOut (nan : List Nat) (s : Setup P) (g : RGlyphs) (infos : List WordInfo) (E : List FNode) (i : Image) :
    Act Nat := do
  let l ← lineLoopOut s g i (i.bounds.w + 1) 0 (Line.init P)
  let st ← mute (filterByLines infos l.boxes l.refs l.st)
  let (_, st) ← mute (filterByFont l.refs st)
  let amb ← mute (derefs st l.refs)
  let (text, n) ← mute (disambiguousWithDict g E amb (l.spaces ++ [amb.length]))
  say (showAnswer nan ⟨text, n, amb.length⟩)
  let _ ← mute (l.ctx.destroy l.heap)
  return 0

end

/-- The dictionary, `ocr2_extract_text.cpp` L62-69. -/
def loadDictOut : Option TextFile → Act (List FNode)
  | none => return []
  | some f => do
    let E ← mute (loadDict (some f))
    say (lit " ## dict ? " ++ lit (if E.isEmpty then "false\n" else "true\n"))
    return E

/-- `main` of `ocr2_extract_text.cpp` L62-197. -/
def session (P : Type) [Dbl P] (S : StdSort) (nan : List Nat) (f : ProgFiles) : Act Nat := do
  let E ← loadDictOut f.dict
  let d ← mute (loadDatas f.datas)
  say (lit " ## datas.size(): " ++ showNat d.size ++ [10])
  let g ← mute (loadGlyphs f.glyphs)
  say (lit " ## glyphs.size(): " ++ showNat g.views.length ++ [10])
  if g.views.length ≠ d.size then mute .throw
  else do
    let infos ← mute (loadInfos S g f.infos)
    let bw ← mute (checkTables g.views d)
    say (lit " ## go\n")
    let i ← mute (loadImage f.image 128)
    extractTextOut nan (setupOf S g.views d bw : Setup P) g infos E i

/-- `main` of `ocr2_extract_text.cpp` L51-197 with its arguments. -/
def ocr2Main (P : Type) [Dbl P] (S : StdSort) (nan : List Nat) (D : Disk) : List (List Nat) → Act Nat
  | glyphs :: datas :: image :: more =>
    session P S nan ⟨D.text glyphs, D.text datas, D.image image, more[0]?.map D.text, more[1]?.map D.text⟩
  | _ => return 1

end Ppocr

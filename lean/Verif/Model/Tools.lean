import Verif.Model.Box
import Verif.Model.DatasIO
import Verif.Model.DictIO
import Verif.Model.ExtractText
import Verif.Model.GlyphIO
import Verif.Model.ImageFile
import Verif.Model.Setup
import Verif.Model.WordLines

/-!
# The programs from the bytes of their files to what they print

`main/write_glyphs.cpp`, `main/write_datas.cpp` and `main/ocr2_extract_text.cpp`. The parsing of the command line is in `Model/Command.lean`.
A text file is given by its bytes; `none` is a file that cannot be opened.
-/

namespace Ppocr

abbrev TextFile := Option (List Nat)

/-- `std::ifstream file(name); if (!file) throw …`, `read_file.hpp` L30-34 and `write_glyphs.cpp` L59-62. -/
def openText : TextFile → Res IS
  | none => .throw
  | some t => .ok (IS.of t)

/-- The image that was loaded, for a program that uses its pixels. A pixel that was never written (C08) is reported as
undefined behaviour even if the program would not look at it. -/
def RawImage.image (r : RawImage) : Res Image :=
  match r.toImage with
  | some i => .ok i
  | none => .ub

/-- `image_from_file` as the programs use it. -/
def loadImage (e : FileEnv) (lum : Nat) : Res Image := do
  let r ← imageFromFile e lum
  r.image

/-! ### `write_glyphs` -/

/-- What a program gave to `std::cout`, and how it ended. After an exception the last part may not have been flushed. -/
structure Written where
  out : List Nat
  ended : Res Unit
  deriving Repr, DecidableEq

/-- Forget the value. -/
def Res.void {α : Type} (r : Res α) : Res Unit := do
  let _ ← r
  return ()

/-- One pass of the loop, `write_glyphs.cpp` L72-88, or, without a letter, L90-92: the next column, the stream of the words
and what is written; `none` is the end. -/
def glyphStep (i : Image) (font : List Nat) (x : Nat) (s : IS) : Res (Option (Nat × IS × List Nat)) := do
  let b ← makeBox i x 0 i.bounds
  if b.truthy then do
    let a ← i.section b.x b.y b.bounds
    let w := s.str []
    if w.2.fail then .throw
    else do
      let t ← glyphWrite ⟨a, [⟨w.1, font, maxU⟩]⟩
      return some (uadd b.x b.w, w.2, t)
  else if (s.str []).2.fail then return none
  else .throw

/-- The loop and what follows, `write_glyphs.cpp` L72-92. -/
def glyphsOfLoop (i : Image) (font : List Nat) : Nat → Nat → IS → List Nat → Written
  | 0, _, _, out => ⟨out, .diverge⟩
  | fuel + 1, x, s, out =>
    match glyphStep i font x s with
    | .ok none => ⟨out, .ok ()⟩
    | .ok (some (x, s, t)) => glyphsOfLoop i font fuel x s (out ++ t)
    | r => ⟨out, r.void⟩

/-- The arguments of `load_file`. -/
structure Job where
  image : FileEnv
  text : TextFile
  font : List Nat

/-- `load_file`, `write_glyphs.cpp` L53-93. -/
def loadFile (lum : Nat) (j : Job) : Written :=
  match (do let s ← openText j.text; let i ← loadImage j.image lum; return (s, i)) with
  | .ok (s, i) => glyphsOfLoop i j.font (i.bounds.w + 1) 0 s []
  | r => ⟨[], r.void⟩

/-- The loop of `main`, `write_glyphs.cpp` L117-119. -/
def writeGlyphs (lum : Nat) : List Job → Written
  | [] => ⟨[], .ok ()⟩
  | j :: js =>
    let r := loadFile lum j
    match r.ended with
    | .ok () => let q := writeGlyphs lum js; ⟨r.out ++ q.out, q.ended⟩
    | _ => r

/-! ### `write_datas` -/

/-- `while (n--) file.ignore(…, '\n')`, `write_datas.cpp` L52-54. -/
def ignoreLines : Nat → IS → IS
  | 0, s => s
  | n + 1, s => ignoreLines n (s.ignore 10)

/-- The loop, `write_datas.cpp` L50-56. -/
def datasLoop : Nat → IS → Datas → Res (Datas × IS)
  | 0, _, _ => .diverge
  | fuel + 1, s, d =>
    let r := imgRead s ⟨⟨0, 0⟩, []⟩
    let n := r.2.uint maxU 0
    if n.2.fail then .ok (d, n.2)
    else do
      let d ← d.load r.1
      datasLoop fuel (ignoreLines n.1 (n.2.ignore 10)) d

/-- `std::cout << '[' << file.rdbuf() << "]\n"`, `write_datas.cpp` L59: inserting no byte at all makes the stream fail. -/
def showRest (l : List Nat) : List Nat := 91 :: if l = [] then [] else l ++ [93, 10]

/-- `main` of `write_datas.cpp` L40-66: the exit code and what is printed. -/
def writeDatas : TextFile → Res (Nat × List Nat)
  | none => .ok (2, [])
  | some t => do
    let (d, s) ← datasLoop (t.length + 1) (IS.of t) Datas.empty
    if s.eof then return (0, datasWrite d) else return (5, showRest s.rest)

/-! ### `ocr2_extract_text` -/

/-- The files of the command line; the last two may be missing. -/
structure ProgFiles where
  glyphs : TextFile
  datas : TextFile
  image : FileEnv
  infos : Option TextFile
  dict : Option TextFile

/-- `ocr2_extract_text.cpp` L62-69 with `read_file`, `read_file.hpp` L45-48. -/
def loadDict : Option TextFile → Res (List FNode)
  | none => .ok []
  | some f => do
    let s ← openText f
    let r ← dictRead s []
    if r.threw then .throw
    else do
      checkEof r.stream
      return r.dict

/-- `load_from_file<PpOcrDatas>`, `ocr2_extract_text.cpp` L71. -/
def loadDatas (f : TextFile) : Res Datas := do
  let s ← openText f
  let r := datasRead s
  checkEof r.2
  return r.1

/-- `load_from_file<ocr2::Glyphs>`, `ocr2_extract_text.cpp` L74. -/
def loadGlyphs (f : TextFile) : Res RGlyphs := do
  let s ← openText f
  let r ← rglyphsRead s []
  checkEof r.2
  return r.1

/-- `ocr2_extract_text.cpp` L81-84. -/
def loadInfos (S : StdSort) (g : RGlyphs) : Option TextFile → Res (List WordInfo)
  | none => wordsInfos S g []
  | some f => do
    let s ← openText f
    let r ← wwordsRead s []
    checkEof r.2
    wordsInfos S g r.1

/-- `main` of `ocr2_extract_text.cpp` L62-197. `checkTables` is the check at L77-79 and the table of L86; between the two
the word table is read. -/
def program (P : Type) [Dbl P] (S : StdSort) (f : ProgFiles) : Res Answer := do
  let E ← loadDict f.dict
  let d ← loadDatas f.datas
  let g ← loadGlyphs f.glyphs
  if g.views.length ≠ d.size then .throw
  else do
    let infos ← loadInfos S g f.infos
    let bw ← checkTables g.views d
    let i ← loadImage f.image 128
    extractText (setupOf S g.views d bw : Setup P) g infos E i

end Ppocr

import Verif.Model.Filter
import Verif.Model.Glyphs

/-!
# Positions of words on the line

`src/ppocr/ocr2/word_lines.{hpp,cpp}` and the constructor of `WordsInfos`, `src/ppocr/ocr2/words_infos.hpp` L40-55.
`WordLines`, `WordInfo` and `WordsInfos::get` are in `Model/Filter.lean`.
-/

namespace Ppocr

/-- `struct WWordLines` (word_lines.hpp L43-53), the array and the length as the string `sv()`. -/
structure WWordLines where
  str : List Nat
  lines : WordLines
  deriving Repr, DecidableEq

/-- `operator>>` of `WordLines` (word_lines.cpp L25-38); the fields have 3 bits. The four variables are not
initialised, but only used when all were read. -/
def wlinesRead (s : IS) (old : WordLines) : WordLines × IS :=
  let a := s.uint (W32 - 1) 0
  let c := a.2.uint (W32 - 1) 0
  let m := c.2.uint (W32 - 1) 0
  let b := m.2.uint (W32 - 1) 0
  (if b.2.fail then old else ⟨a.1 % 8, c.1 % 8, m.1 % 8, b.1 % 8⟩, b.2)

/-- The loop of `operator>>` of `WWordsLines` (word_lines.cpp L44-50). What the variables held before a pass is only
kept when the pass fails, so it is not carried along. -/
def wwordsLoop : Nat → IS → List WWordLines → Res (List WWordLines × IS)
  | 0, _, _ => .diverge
  | fuel + 1, s, acc =>
    let w := s.str []
    let l := wlinesRead w.2 ⟨0, 0, 0, 0⟩
    if l.2.fail then .ok (acc, l.2)
    else wwordsLoop fuel l.2 (if w.1.length ≤ 8 then acc ++ [⟨w.1, l.1⟩] else acc)

/-- `operator>>` of `WWordsLines` (word_lines.cpp L40-52). -/
def wwordsRead (s : IS) (old : List WWordLines) : Res (List WWordLines × IS) := wwordsLoop (s.rest.length + 1) s old

/-- The loop of the constructor of `WordsInfos` (words_infos.hpp L42-47). -/
def infosLoop (g : RGlyphs) : List WWordLines → Res (List WordInfo)
  | [] => .ok []
  | p :: ps => do
    let idx ← wordIndexOf g p.str
    let r ← infosLoop g ps
    return if idx ≠ noIndex then ⟨idx, p.lines⟩ :: r else r

/-- The constructor of `WordsInfos` (words_infos.hpp L40-55). -/
def wordsInfos (S : StdSort) (g : RGlyphs) (ls : List WWordLines) : Res (List WordInfo) := do
  let l ← infosLoop g ls
  return S.sort (fun a b => decide (a.word < b.word)) l

end Ppocr

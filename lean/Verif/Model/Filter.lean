import Verif.Model.Ocr2
import Verif.Model.Box

/-!
# Filters on the candidates of a line

Model of `src/ppocr/ocr2/filter_by_font.cpp`, `filter_by_lines.cpp` and of `WordsInfos::get` in
`words_infos.hpp`.

An `ambiguous_t` (ambiguous.hpp L26) is a vector of references to candidate lists that live in the image
cache: here the list `refs` of positions in the list `st` of the candidate lists. Two letters may refer to
the same list. A `view_ref` is the view itself.
-/

namespace Ppocr

/-! ### `filter_by_font` -/

/-- `++fonts[k]` on a `std::map<unsigned, unsigned>` (filter_by_font.cpp L28): entries in increasing order
of their keys. -/
def fontIncr (k : Nat) : List (Nat × Nat) → List (Nat × Nat)
  | [] => [(k, 1)]
  | (f, n) :: m =>
    if k < f then (k, 1) :: (f, n) :: m
    else if k = f then (f, uadd n 1) :: m
    else (f, n) :: fontIncr k m

/-- The first loop (filter_by_font.cpp L26-30). -/
def countFonts (st : List (List View)) : List Nat → List (Nat × Nat) → Res (List (Nat × Nat))
  | [], m => .ok m
  | r :: rs, m => do
    let vec ← rd st r
    match vec with
    | [v] => countFonts st rs (fontIncr v.font m)
    | _ => countFonts st rs m

/-- `std::max_element` by the count (filter_by_font.cpp L33-35): the first of the greatest. -/
def maxFont : Nat × Nat → List (Nat × Nat) → Nat × Nat
  | b, [] => b
  | b, e :: m => if b.2 < e.2 then maxFont e m else maxFont b m

/-- The body of the second loop (filter_by_font.cpp L38-44). -/
def keepFont (font : Nat) (vec : List View) : List View :=
  match vec with
  | [] => []
  | [v] => [v]
  | v :: vs =>
    match (v :: vs).find? fun u => decide (u.font = font) with
    | some u => [u]
    | none => [v]

/-- The second loop (filter_by_font.cpp L37-45). -/
def keepFonts (font : Nat) : List Nat → List (List View) → Res (List (List View))
  | [], st => .ok st
  | r :: rs, st => do
    let vec ← rd st r
    keepFonts font rs (st.set r (keepFont font vec))

/-- `filter_by_font` (filter_by_font.cpp L23-50). -/
def filterByFont (refs : List Nat) (st : List (List View)) : Res (Nat × List (List View)) := do
  let fonts ← countFonts st refs []
  match fonts with
  | [] => return (4294967295, st)
  | e :: m =>
    let best := maxFont e m
    if m = [] ∨ refs.length / 2 ≤ best.2 then do
      let st ← keepFonts best.1 refs st
      return (best.1, st)
    else return (best.1, st)

/-! ### `WordsInfos` -/

/-- `struct WordLines` (word_lines.hpp L30-41): four 3-bit fields. -/
structure WordLines where
  ascent : Nat
  cap : Nat
  mean : Nat
  base : Nat
  deriving Repr, DecidableEq

/-- `struct WordInfos` (words_infos.hpp L30-33). -/
structure WordInfo where
  word : Nat
  lines : WordLines
  deriving Repr, DecidableEq

/-- `WordsInfos::get` (words_infos.hpp L57-65). -/
def infosGet (infos : List WordInfo) (w : Nat) : Res (Option WordInfo) := do
  let k ← partitionPoint (fun k => do
    let e ← rd infos k
    return decide (e.word < w)) (infos.length + 1) 0 infos.length
  match infos[k]? with
  | none => return none
  | some e => return if e.word = w then some e else none

/-! ### `filter_line` -/

/-- The list cut in the runs of views of the same word that `next_word` (filter_by_lines.cpp L28-37) and
the calls of `find_if` with `view_equal_to` (L39-42, L54, L60) delimit. -/
def wordRuns : List View → List (List View)
  | [] => []
  | v :: vs =>
    match wordRuns vs with
    | (u :: g) :: gs => if u.word = v.word then (v :: u :: g) :: gs else [v] :: (u :: g) :: gs
    | gs => [v] :: gs

/-- `pred(*first)` at the beginning of a run. -/
def predFirst (pred : View → Res Bool) : List View → Res Bool
  | [] => .ub
  | v :: _ => pred v

/-- `pred(*(first-1))` at the end of a run (filter_by_lines.cpp L52). -/
def predLast (pred : View → Res Bool) (g : List View) : Res Bool :=
  match g.getLast? with
  | none => .ub
  | some v => pred v

/-- The `do … while` (filter_by_lines.cpp L53-56): the runs passed over, the remaining ones, the count. -/
def keepRuns (pred : View → Res Bool) :
    List (List View) → Nat → Res (List View × List (List View) × Nat)
  | [], n => .ok ([], [], n)
  | g :: gs, n =>
    match gs with
    | [] => .ok (g, [], uadd n 1)
    | h :: _ => do
      let r ← predFirst pred h
      if r then return (g, gs, uadd n 1)
      else do
        let (k, rest, m) ← keepRuns pred gs (uadd n 1)
        return (g ++ k, rest, m)

/-- The `while` (filter_by_lines.cpp L59-66). -/
def filterRuns (pred : View → Res Bool) : List (List View) → Nat → Res (List View × Nat)
  | [], n => .ok ([], n)
  | g :: gs, n => do
    let r ← predFirst pred g
    let (k, m) ← filterRuns pred gs (if r then n else uadd n 1)
    return (if r then k else g ++ k, m)

/-- The first branch of `filter_line` (filter_by_lines.cpp L50-58). -/
def keepFirstRuns (pred : View → Res Bool) (r : Bool) (g : List View) (gs : List (List View)) :
    Res (List View × List (List View) × Nat) :=
  if r then .ok ([], gs, 0)
  else do
    let (k, rest, n) ← keepRuns pred gs 0
    return (g ++ k, rest, n)

/-- `filter_line` (filter_by_lines.cpp L44-72) with a count started at 0: what the list becomes, and the
count. -/
def filterLine (pred : View → Res Bool) (vec : List View) : Res (List View × Nat) :=
  match wordRuns vec with
  | [] => .ok (vec, 0)
  | [_] => .ok (vec, 0)
  | g :: gs => do
    let r ← predLast pred g
    let (kept, rest, n) ← keepFirstRuns pred r g gs
    let (tail, n) ← filterRuns pred rest n
    return (kept ++ tail, n)

/-! ### `filter_by_lines` -/

/-- `struct MinMaxBox` (filter_by_lines.cpp L74-94). -/
structure MinMax where
  minTop : Nat
  maxTop : Nat
  minBottom : Nat
  maxBottom : Nat
  deriving Repr, DecidableEq

/-- Its constructor (L83-93): the maxima start at 0 and skip the first box. -/
def minMaxBox (b : Box) (bs : List Box) : MinMax :=
  bs.foldl (fun m c => ⟨min m.minTop c.y, max m.maxTop c.y, min m.minBottom c.bottom,
    max m.maxBottom c.bottom⟩) ⟨b.y, 0, b.bottom, 0⟩

/-- `bottom_ys_len` (filter_by_lines.cpp L109), 32-bit. -/
def MinMax.bottomLen (m : MinMax) : Nat := uadd (usub m.maxBottom m.minBottom) 1
/-- `top_ys_len` (filter_by_lines.cpp L110), 32-bit. -/
def MinMax.topLen (m : MinMax) : Nat := uadd (usub m.maxTop m.minTop) 1
/-- The size of `uint_buffer` (filter_by_lines.cpp L112). -/
def MinMax.bufLen (m : MinMax) : Nat := max m.bottomLen m.topLen

/-- `++ys[k]`. -/
def bumpAt (ys : List Nat) (k : Nat) : Res (List Nat) := do
  let n ← rd ys k
  return ys.set k (uadd n 1)

/-- Distance from the beginning of `std::max_element` on a non-empty range: `best` is the greatest so far,
at `pos`, `k` the position of the next element. -/
def maxIndexFrom (best pos k : Nat) : List Nat → Nat
  | [] => pos
  | n :: l => if best < n then maxIndexFrom n k (k + 1) l else maxIndexFrom best pos (k + 1) l

/-- `std::max_element(l.begin(), l.end()) - l.begin()`. -/
def maxIndex : List Nat → Nat
  | [] => 0
  | n :: l => maxIndexFrom n 0 1 l

/-- The histogram loop (filter_by_lines.cpp L116-118). -/
def bumpBottoms (lo : Nat) : List Box → List Nat → Res (List Nat)
  | [], ys => .ok ys
  | b :: bs, ys => do
    let ys ← bumpAt ys (usub b.bottom lo)
    bumpBottoms lo bs ys

/-- `std::fill` of the first `n` elements (filter_by_lines.cpp L123). -/
def zeroFirst (n : Nat) (ys : List Nat) : List Nat := List.replicate (min n ys.length) 0 ++ ys.drop n

/-- `line_pred` (filter_by_lines.cpp L135-149). -/
def linePred (flags ypos pos : Nat) : Bool :=
  match flags with
  | 1 => decide (pos ≤ uadd ypos 1)
  | 2 => decide (1 < if ypos < pos then usub pos ypos else usub ypos pos)
  | 4 => decide (ypos ≤ uadd pos 1)
  | 3 => decide (pos < uadd ypos 1)
  | 6 => decide (ypos < uadd pos 1)
  | _ => false

/-- The predicates of the two passes (filter_by_lines.cpp L153-156, L176-179). -/
def wordPred (infos : List WordInfo) (field : WordLines → Nat) (ypos pos : Nat) (v : View) : Res Bool := do
  let p ← infosGet infos v.word
  match p with
  | none => return false
  | some e => return linePred (field e.lines) ypos pos

/-- The meanline histogram (filter_by_lines.cpp L156-164). -/
def countMean (infos : List WordInfo) (minTop : Nat) (b : Box) (vec : List View) (n : Nat)
    (map : List Nat) (has : Bool) : Res (List Nat × Bool) :=
  if n = 1 then do
    let v ← rd vec 0
    let p ← infosGet infos v.word
    match p with
    | none => return (map, has)
    | some e =>
      if e.lines.base = 2 ∧ e.lines.mean = 2 then do
        let map ← bumpAt map (usub b.y minTop)
        return (map, true)
      else return (map, has)
  else .ok (map, has)

/-- The first pass (filter_by_lines.cpp L151-167). -/
def basePass (infos : List WordInfo) (baseline minTop : Nat) :
    List (Nat × Box) → List (List View) → List Nat → Bool → Res (List (List View) × List Nat × Bool)
  | [], st, map, has => .ok (st, map, has)
  | (r, b) :: l, st, map, has => do
    let vec ← rd st r
    let (vec, n) ← filterLine (wordPred infos WordLines.base b.bottom baseline) vec
    let (map, has) ← countMean infos minTop b vec n map has
    basePass infos baseline minTop l (st.set r vec) map has

/-- The second pass (filter_by_lines.cpp L173-181). -/
def meanPass (infos : List WordInfo) (meanline : Nat) :
    List (Nat × Box) → List (List View) → Res (List (List View))
  | [], st => .ok st
  | (r, b) :: l, st => do
    let vec ← rd st r
    let (vec, _) ← filterLine (wordPred infos WordLines.mean b.y meanline) vec
    meanPass infos meanline l (st.set r vec)

/-- The second pass behind its condition (filter_by_lines.cpp L169-182). -/
def meanIf (infos : List WordInfo) (m : MinMax) (l : List (Nat × Box)) (st : List (List View))
    (map : List Nat) (has : Bool) : Res (List (List View)) :=
  if has then meanPass infos (uadd (maxIndex (map.take m.topLen)) m.minTop) l st else .ok st

/-- `filter_by_lines` (filter_by_lines.cpp L97-183). -/
def filterByLines (infos : List WordInfo) (boxes : List Box) (refs : List Nat) (st : List (List View)) :
    Res (List (List View)) := do
  assert (decide (boxes.length = refs.length))
  match boxes with
  | [] => return st
  | b :: bs =>
    let m := minMaxBox b bs
    let ys ← bumpBottoms m.minBottom boxes (List.replicate m.bufLen 0)
    let baseline := uadd (maxIndex (ys.take m.bottomLen)) m.minBottom
    let map := zeroFirst (min m.bottomLen m.topLen) ys
    let (st, map, has) ← basePass infos baseline m.minTop (refs.zip boxes) st map false
    meanIf infos m (refs.zip boxes) st map has

end Ppocr

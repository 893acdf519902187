import Verif.Model.Reindex
import Verif.Model.Normalize
import Verif.Model.Tools

/-!
# How `extract_text8` prepares its tables

`main/extract_text8.cpp` L581-686: the glyphs with the same features are to be merged. Of a view only the word is kept, the
program uses neither the font nor the lines. `mv w` is what a `std::string` holding `w` holds after it was moved from,
which the standard leaves open; a vector moved from is `none` as in `Model/Reindex.lean`.
-/

namespace Ppocr

/-- The words of the views of a glyph. -/
abbrev Words := List (List Nat)

/-- `extract_text8.cpp` L606-609: `std::unique` on the words of a glyph. -/
def uniqueWords (g : LGlyph) : Res Words := uniqueBy (fun a b => .ok (decide (a = b))) (g.views.map LView.word)

/-- `datas_eq`, `extract_text8.cpp` L561-577. -/
def rowEq (i j : Nat) : List Table → Res Bool
  | [] => .ok true
  | t :: ts => do
    let a ← rd t.vals i
    let b ← rd t.vals j
    if a = b then rowEq i j ts else return false

/-- `std::find_if`, `extract_text8.cpp` L638-640, from `first + 1` on: the distance of `pos`. -/
def findRow (d : Datas) (i : Nat) : List Nat → Res Nat
  | [] => .ok 0
  | j :: js => do
    let b ← rowEq j i d.tables
    if b then return 0
    else do
      let k ← findRow d i js
      return k + 1

/-- `std::set_union` of libstdc++ through `std::make_move_iterator`, `extract_text8.cpp` L647-653: what is written, and the
second range afterwards. The first range is thrown away by the caller. -/
def setUnion (mv : List Nat → List Nat) : Words → Words → Words × Words
  | [], l => (l, l.map mv)
  | a :: l, [] => (a :: l, [])
  | a :: l, b :: m =>
    if wordLt a b then
      let r := setUnion mv l (b :: m)
      (a :: r.1, r.2)
    else if wordLt b a then
      let r := setUnion mv (a :: l) m
      (b :: r.1, mv b :: r.2)
    else
      let r := setUnion mv l m
      (a :: r.1, b :: r.2)
termination_by l m => l.length + m.length

/-- The glyphs, and the vector `duplicate` as positions in `indexes`. -/
structure Merge where
  views : List Words
  dups : List Nat
  deriving Repr, DecidableEq

/-- The body of the inner loop, `extract_text8.cpp` L643-655, at position `k`. -/
def mergeAt (mv : List Nat → List Nat) (idx : List Nat) (k : Nat) (m : Merge) : Res Merge := do
  let a ← rd idx k
  let b ← rd idx (k - 1)
  let va ← rd m.views a
  let vb ← rd m.views b
  let r := setUnion mv va vb
  let v ← uniqueBy (fun a b => .ok (decide (a = b))) r.1
  return ⟨(m.views.set b r.2).set a v, m.dups ++ [k]⟩

/-- The inner loop, `extract_text8.cpp` L642-656: `n` positions from `k` on. -/
def mergeRun (mv : List Nat → List Nat) (idx : List Nat) : Nat → Nat → Merge → Res Merge
  | 0, _, m => .ok m
  | n + 1, k, m => do
    let m ← mergeAt mv idx k m
    mergeRun mv idx n (k + 1) m

/-- The outer loop, `extract_text8.cpp` L635-658. -/
def mergeFrom (mv : List Nat → List Nat) (d : Datas) (idx : List Nat) : Nat → Nat → Merge → Res Merge
  | 0, _, _ => .diverge
  | fuel + 1, first, m =>
    if first = idx.length then .ok m
    else do
      let i ← rd idx first
      let n ← findRow d i (idx.drop (first + 1))
      let m ← mergeRun mv idx n (first + 1) m
      mergeFrom mv d idx fuel (first + 1 + n) m

/-- The `while` in the predicate, `extract_text8.cpp` L668-670; `f` is the iterator into `duplicate`. -/
def skipDup (dup : List Nat) (p : Nat) : Nat → Nat → Res Nat
  | 0, _ => .diverge
  | fuel + 1, f => do
    let x ← rd dup f
    if x < p then skipDup dup p fuel (f + 1) else return f

/-- `std::copy_if`, `extract_text8.cpp` L664-673: `n` positions from `p` on are copied to `out`; the end of what was
written, and `indexes`. -/
def copyKept (dup : List Nat) : Nat → Nat → Nat → Nat → List Nat → Res (Nat × List Nat)
  | 0, _, _, out, idx => .ok (out, idx)
  | n + 1, p, f, out, idx => do
    let x ← rd dup f
    let f ← skipDup dup p (dup.length + 1) f
    if x ≠ p then do
      let v ← rd idx p
      let idx ← wrAt idx out v
      copyKept dup n (p + 1) f (out + 1) idx
    else copyKept dup n (p + 1) f out idx

/-- Writing elements from `k` on. -/
def wrFrom : List Nat → Nat → List Nat → Res (List Nat)
  | [], _, idx => .ok idx
  | v :: vs, k, idx => do
    let idx ← wrAt idx k v
    wrFrom vs (k + 1) idx

/-- `extract_text8.cpp` L661-676. A range whose end is before its begin is undefined. The standard does not let the outer
`std::copy` write into its own source; here it moves the elements as `memmove`, which is what libstdc++ does, so this
is not where the model finds something undefined. -/
def dropDups (dup idx : List Nat) : Res (List Nat) :=
  match dup.head?, dup.getLast? with
  | some a, some b =>
    if b < a + 1 then .ub
    else do
      let r ← copyKept dup (b - (a + 1)) (a + 1) 1 (a + 1) idx
      if idx.length - 1 < r.1 then .ub
      else wrFrom ((r.2.take (idx.length - 1)).drop r.1) b r.2
  | _, _ => .ok idx

/-- `apply_from_datas(datas, ReindexDatas{indexes})`, `extract_text8.cpp` L521-531 and L679. -/
def reindexTables (idx : List Nat) : List Table → Res (List (List (Option Value)))
  | [] => .ok []
  | t :: ts => do
    let c ← reindex (.num 0) idx t.vals
    let cs ← reindexTables idx ts
    return c :: cs

/-- `index_pack<first_algo, PpOcrDatas>`, `extract_text8.cpp` L69-85 and L625: the strategy number 16. -/
def strategy1 : Feat × Policy := (.dvdirection, .img90)

/-- The comparator of the sort, `extract_text8.cpp` L626-628. -/
def ltFirst (d : Datas) (i j : Nat) : Res Bool := do
  let a ← rd (d.get strategy1) i
  let b ← rd (d.get strategy1) j
  return a.lt b

/-- What is behind the block: the words of the glyphs, the columns of the features, and `indexes`, which says where
they come from. -/
structure Prepared where
  words : List (Option Words)
  cols : List (List (Option Value))
  idx : List Nat
  deriving Repr, DecidableEq

/-- `extract_text8.cpp` L615-680, on the words of the glyphs. -/
def prepare8 (S : StdSort) (mv : List Nat → List Nat) (d : Datas) (ws : List Words) : Res Prepared :=
  if 1 < ws.length then do
    let idx := List.range (d.size % W32)
    assert (decide (idx.length = d.size))
    let idx ← sortRes S (ltFirst d) idx
    let m ← mergeFrom mv d idx (idx.length + 1) 0 ⟨ws, []⟩
    let idx ← dropDups m.dups idx
    let ws ← reindex [] idx m.views
    let cols ← reindexTables idx d.tables
    return ⟨ws, cols, idx⟩
  else .ok ⟨ws.map some, d.tables.map fun t => t.vals.map some, List.range ws.length⟩

/-- `map[word].emplace_back(n)` on a `std::map` with strings as keys. -/
def mapAddWord (w : List Nat) (n : Nat) : List (List Nat × List Nat) → List (List Nat × List Nat)
  | [] => [(w, [n])]
  | (k, l) :: m =>
    if wordLt w k then (w, [n]) :: (k, l) :: m
    else if w = k then (k, l ++ [n]) :: m
    else (k, l) :: mapAddWord w n m

/-- The first loop of `make_data_by_word`, `extract_text8.cpp` L538-542; `front()` of a vector that is empty, or that was
moved from, is undefined. -/
def collectFirst : List (Option Words) → Nat → List (List Nat × List Nat) → Res (List (List Nat × List Nat))
  | [], _, m => .ok m
  | some (w :: _) :: gs, n, m => collectFirst gs (n + 1) (mapAddWord w n m)
  | _ :: _, _, _ => .ub

/-- `make_data_by_word`, `extract_text8.cpp` L535-559; the second loop is that of `data_indexes_by_words.cpp`. -/
def makeByWord (gs : List (Option Words)) : Res (List (List Nat)) := do
  let m ← collectFirst gs 0 []
  return m.foldl (fun t p => fillGroup p.2 t) (List.replicate gs.length [])

/-- `load_from_file<loader2::Glyphs>`, `extract_text8.cpp` L598. -/
def loadLGlyphs (f : TextFile) : Res (List LGlyph) := do
  let s ← openText f
  let r ← glyphsRead s []
  checkEof r.2
  return r.1

/-- `extract_text8.cpp` L605-611. -/
def allWords : List LGlyph → Res (List Words)
  | [] => .ok []
  | g :: gs => do
    let w ← uniqueWords g
    let ws ← allWords gs
    return w :: ws

/-- `main` of `extract_text8.cpp` up to L686, before the image is read: the dictionary and the datas as they were read, and the
tables with which it goes on. -/
def tables8 (S : StdSort) (mv : List Nat → List Nat) (f : ProgFiles) : Res (List FNode × Datas × Prepared × List (List Nat)) := do
  let E ← loadDict f.dict
  let d ← loadDatas f.datas
  let gs ← loadLGlyphs f.glyphs
  if gs.length ≠ d.size then .throw
  else do
    let ws ← allWords gs
    let p ← prepare8 S mv d ws
    let bw ← makeByWord p.words
    return (E, d, p, bw)

end Ppocr

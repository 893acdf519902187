import Verif.Model.Text8
import Verif.Model.Cache
import Verif.Model.Setup
import Verif.Model.Disambiguouser

/-!
# The program `extract_text6`

`main/extract_text6.cpp`. What it prints besides the three results is left out. Of a view only the word is kept, the program uses
neither the font nor the lines.
-/

namespace Ppocr

/-! ### Features of a letter -/

/-- `data_for_strategy::load`, `extract_text6.cpp` L401-413, through `loader2::load`, `datas_loader.hpp` L103-112: both this
function and `Strategy::load` exchange the pictures for the policy `img90`. The context is new, L582-588. -/
def toolLoad (s : Feat × Policy) (img img90 : Image) : Res Value := do
  let (v, _) ← match s.2 with
    | .img => stratLoad s img img90 Ctxs.fresh
    | .img90 => stratLoad s img90 img Ctxs.fresh
  return v

/-- `algo_indexes`, `extract_text6.cpp` L70. -/
def algoIndexes : List Nat := [16, 12, 18, 19, 11, 15, 14, 10, 13, 17, 9, 5, 4, 1, 7, 8, 3, 0, 6, 2]

/-- `SecondStrategy, Strategies...`, `extract_text6.cpp` L88-93 and L789; the first one is `strategy1`. -/
def otherAlgos : List (Feat × Policy) := algoIndexes.tail.filterMap fun k => simpleStrats[k]?

/-- `get_interval`, `extract_text6.cpp` L289-292; `ocr_div` (L55) is 10. -/
def interval6 (s : Feat × Policy) : Nat := usub (intervalRel s.1.k).count 1 / 10

/-- A column of `unsigned`. -/
def Datas.col (d : Datas) (s : Feat × Policy) : List Nat := (d.get s).map Value.toNum

/-! ### Tables -/

/-- `++cat[k]` for `n` cells from `k` on. -/
def bumpFrom : Nat → Nat → List Nat → Res (List Nat)
  | 0, _, cat => .ok cat
  | n + 1, k, cat => do
    let c ← rd cat k
    let cat ← wrAt cat k (uadd c 1)
    bumpFrom n (k + 1) cat

/-- The loop of `nb_u64`, `extract_text6.cpp` L328-334. `min` is 0 when the difference of `unsigned` numbers is negative as
an `int`. -/
def nbLoop (interval : Nat) : List Nat → List Nat → Res (List Nat)
  | [], cat => .ok cat
  | x :: xs, cat => do
    let lo := x / 10 - interval / 10
    let hi := min (x / 10 + interval / 10) interval
    let cat ← bumpFrom (hi + 1 - lo) lo cat
    nbLoop interval xs cat

/-- The loop of `shift_u64`, `extract_text6.cpp` L341-343. -/
def shiftLoop : List Nat → List Nat → Res (List Nat)
  | [], cat => .ok cat
  | x :: xs, cat => do
    let cat ← bumpFrom 1 (x / 10) cat
    shiftLoop xs cat

/-- `std::partial_sum`, `extract_text6.cpp` L345, with the sum so far. -/
def partialSums : Nat → List Nat → List Nat
  | _, [] => []
  | a, x :: l => uadd a x :: partialSums (uadd a x) l

/-- `shift_u64`, `extract_text6.cpp` L337-350. -/
def shiftOf (interval : Nat) (col nb : List Nat) : Res (List Nat) := do
  let cat ← shiftLoop col (List.replicate (interval + 1) 0)
  let d := interval / 10 + 1
  if cat.length < d then .ub
  else do
    let cat := List.replicate d 0 ++ (partialSums 0 cat).take (cat.length - d)
    let a ← rd cat (cat.length - 1)
    let b ← rd nb (nb.length - 1)
    assert (decide (uadd a b = col.length))
    return cat

/-- The inner loop of `initialize_datas_mask`, `extract_text6.cpp` L306-312: `n` entries from `idef` on. -/
def maskFill (col : List Nat) (shift value d : Nat) : Nat → Nat → List Nat → Res (List Nat)
  | 0, _, mask => .ok mask
  | n + 1, idef, mask => do
    let v ← rd col (shift + idef)
    let sig := v / 10
    if (if value < sig then decide (sig ≤ value + d) else decide (value ≤ uadd sig d)) then do
      let w ← rd mask (idef / 64)
      let mask ← wrAt mask (idef / 64) (w ||| 1 <<< (idef % 64))
      maskFill col shift value d n (idef + 1) mask
    else maskFill col shift value d n (idef + 1) mask

/-- One turn of the outer loop, `extract_text6.cpp` L300-315. -/
def maskOf (col : List Nat) (shift nb d value : Nat) : Res (List Nat) :=
  maskFill col shift value d nb 0 (List.replicate (uadd nb 63 / 64) 0)

/-- A loop that fills a vector. -/
def eachRes {α β : Type} (f : α → Res β) : List α → Res (List β)
  | [] => .ok []
  | a :: l => do
    let b ← f a
    let r ← eachRes f l
    return b :: r

/-- `initialize_datas_mask`, `extract_text6.cpp` L294-316. -/
def masksOf (d : Datas) (shift nb : Nat) (s : Feat × Policy) : Res (List (List Nat)) :=
  eachRes (maskOf (d.col s) shift nb (interval6 s / 10 / 10)) (List.range (interval6 s + 1))

/-- `data_by_word` and `compute_image_data_type`, `extract_text6.cpp` L241-287, with the tables they are made of: the words of
the glyphs, and the datas. `defs` is indexed by the value of the first strategy, the strategy, and its value. -/
structure Tab6 where
  words : List Words
  datas : Datas
  byWords : List (List Nat)
  nb : List Nat
  shift : List Nat
  defs : List (List (List (List Nat)))

/-- A vector none of whose cells was moved from. That is so for indexes that are a permutation; otherwise the model gives
up. -/
def unmoved {α : Type} : List (Option α) → Res (List α)
  | [] => .ok []
  | none :: _ => .ub
  | some a :: l => do
    let r ← unmoved l
    return a :: r

/-- The columns behind `apply_from_datas`, `extract_text6.cpp` L780. -/
def columns6 : List Table → List (List (Option Value)) → Res (List Table)
  | [], _ => .ok []
  | _ :: _, [] => .ub
  | t :: ts, c :: cs => do
    let v ← unmoved c
    let r ← columns6 ts cs
    return ⟨t.strat, v⟩ :: r

/-- `extract_text6.cpp` L765-781: the glyphs in the order of the first strategy. -/
def order6 (S : StdSort) (d : Datas) (ws : List Words) : Res (List Words × Datas) := do
  let idx := List.range (d.size % W32)
  assert (decide (idx.length = d.size))
  let idx ← sortRes S (ltFirst d) idx
  let w ← reindex [] idx ws
  let w ← unmoved w
  let cols ← reindexTables idx d.tables
  let ts ← columns6 d.tables cols
  return (w, ⟨ts, Ctxs.fresh⟩)

/-- `extract_text6.cpp` L785-790, the constructor at L321-369 included. -/
def build6 (d : Datas) (ws : List Words) : Res Tab6 := do
  let bw ← makeByWord (ws.map some)
  let nb ← nbLoop (interval6 strategy1) (d.col strategy1) (List.replicate (interval6 strategy1 + 1) 0)
  let shift ← shiftOf (interval6 strategy1) (d.col strategy1) nb
  let defs ← eachRes (fun p : Nat × Nat => eachRes (masksOf d p.1 p.2) otherAlgos) (shift.zip nb)
  return ⟨ws, d, bw, nb, shift, defs⟩

/-! ### One letter -/

/-- The `prob` of a `Probability` (`extract_text6.cpp` L112-121) as a fraction. Only 0 and 1 come up (see `Crisp`), with which
`double` calculates exactly. -/
structure Prob6 where
  num : Nat
  den : Nat
  deriving Repr, DecidableEq

/-- `p * a / b`. -/
def Prob6.mulDiv (p : Prob6) (a b : Nat) : Prob6 := ⟨p.num * a, p.den * b⟩

/-- `p < q`. -/
def Prob6.less (p q : Prob6) : Bool := decide (p.num * q.den < q.num * p.den)

/-- A list of candidates. -/
abbrev Probs6 := List (Nat × Prob6)

/-- The factor of a strategy, `extract_text6.cpp` L388-395, in percent: `v` is the entry of the column, `x` the value of the
letter. -/
def factor6 (interval v x : Nat) : Res Nat :=
  let sig := v / 10
  let value := x / 10
  let d := interval / 10
  if value < sig then
    if sig ≤ uadd value d then udiv (umul (usub interval (usub sig value)) 100) interval else .ok 0
  else
    if value ≤ uadd sig d then udiv (umul (usub interval (usub value sig)) 100) interval else .ok 0

/-- The loop of `compute_probability`, `extract_text6.cpp` L387-396, over columns, intervals and values. The values are read
through a `reinterpret_cast` of the object that holds them one after the other. -/
def probFrom (idata : Nat) : List (List Nat × Nat × Nat) → Prob6 → Res Prob6
  | [], p => .ok p
  | (col, interval, x) :: l, p => do
    let v ← rd col idata
    let f ← factor6 interval v x
    probFrom idata l (p.mulDiv f 100)

/-- The loop of `reduce_universe`, `extract_text6.cpp` L102-107. -/
def andMasks : List Nat → List Nat → Res (List Nat)
  | acc, [] => .ok acc
  | [], _ :: _ => .ub
  | a :: acc, m :: ms => do
    let r ← andMasks acc ms
    return (a &&& m) :: r

/-- The fold of `reduce_universe`, `extract_text6.cpp` L597-601. -/
def reduceMasks : List (List (List Nat) × Nat) → List Nat → Res (List Nat)
  | [], acc => .ok acc
  | (masks, x) :: l, acc => do
    let m ← rd masks (x / 10)
    let acc ← andMasks acc m
    reduceMasks l acc

/-- The loop over the accepted glyphs, `extract_text6.cpp` L609-618: `n` of them from `i` on. -/
def collect6 (acc : List Nat) (shift : Nat) (prob : Nat → Res Prob6) : Nat → Nat → Res Probs6
  | 0, _ => .ok []
  | n + 1, i => do
    let w ← rd acc (i / 64)
    if w.testBit (i % 64) then do
      let p ← prob (shift + i)
      let r ← collect6 acc shift prob n (i + 1)
      return ((shift + i) % W32, p) :: r
    else collect6 acc shift prob n (i + 1)

/-- The candidates of a letter, `extract_text6.cpp` L573-618. The buffer has room for `glyphs.size()` of them, L363. -/
def candidates6 (t : Tab6) (img img90 : Image) : Res Probs6 := do
  let x1 := (← toolLoad strategy1 img img90).toNum
  let xs ← eachRes (fun s => do return (← toolLoad s img img90).toNum) otherAlgos
  let nb ← rd t.nb (x1 / 10)
  let defs ← rd t.defs (x1 / 10)
  let second ← rd defs 0
  let y ← rd xs 0
  let acc ← rd second (y / 10)
  let acc ← reduceMasks (defs.zip xs).tail acc
  let shift ← rd t.shift (x1 / 10)
  let cols := ((strategy1 :: otherAlgos).zip (x1 :: xs)).map fun p => (t.datas.col p.1, interval6 p.1 / 10, p.2)
  let ps ← collect6 acc shift (fun i => probFrom i cols ⟨1, 1⟩) nb 0
  if ps.length ≤ t.words.length then return ps else .ub

/-- `std::mismatch` of two vectors of the same size and what follows, `extract_text6.cpp` L194-198: `none` when the words
are the same. -/
def mismatchLt : Words → Words → Option Bool
  | a :: l, b :: m => if a = b then mismatchLt l m else some (wordLt a b)
  | _, _ => none

/-- The first comparator, `extract_text6.cpp` L184-199; `less` compares probabilities. -/
def ltShow {P : Type} (less : P → P → Bool) (words : List Words) (a b : Nat × P) : Res Bool := do
  let v1 ← rd words a.1
  let v2 ← rd words b.1
  if v1.length < v2.length then return true
  else if v1.length > v2.length then return false
  else return (mismatchLt v1 v2).getD (less b.2 a.2)

/-- `sort_and_show_infos`, `extract_text6.cpp` L172-219. -/
def sortShow {P : Type} (S : StdSort) (less : P → P → Bool) (words : List Words) (ps : List (Nat × P)) : Res (List (Nat × P)) :=
  if ps.isEmpty then .ok ps
  else do
    let ps ← sortRes S (ltShow less words) ps
    let ps ← uniqueBy (fun a b => do
      let v1 ← rd words a.1
      let v2 ← rd words b.1
      return decide (v1 = v2)) ps
    sortRes S (fun a b => .ok (less b.2 a.2)) ps

/-- A strategy of `PpOcrComplexDatas` or `PpOcrExclusiveDatas` as `extract_text6` uses it: `compute` of `equal_relationship` is a
`bool`, `equal.hpp` L34-37. -/
def Datas.strat6 (d : Datas) (s : Feat × Policy) : Strat :=
  match s.1 with
  | .alternations => ⟨_, arrayRel (Bool × Nat), fun a r => do return (← toolLoad s a r).toAlt, (d.get s).map Value.toAlt⟩
  | .zone => ⟨_, arrayRel Nat, fun a r => do return (← toolLoad s a r).toArr, (d.get s).map Value.toArr⟩
  | .propZone => ⟨_, pzRel, fun a r => do return (← toolLoad s a r).toArr, (d.get s).map Value.toArr⟩
  | _ => ⟨_, { equalRel with compute := fun a b => .ok (if a = b then 1 else 0) },
      fun a r => do return (← toolLoad s a r).toNum, (d.get s).map Value.toNum⟩

/-- The loop of `reduce_complexe_universe`, `extract_text6.cpp` L424-432; `scale p x c` is `p * x / c`. -/
def complexLoop {P V : Type} (scale : P → Nat → Nat → P) (rel : Rel V) (tab : List V) (value : V) :
    List (Nat × P) → Res (List (Nat × P))
  | [] => .ok []
  | p :: ps => do
    let count := usub rel.count 1
    let v ← rd tab p.1
    let x ← rel.compute v value
    let r ← complexLoop scale rel tab value ps
    return if uadd count 1 / 2 ≤ x then (p.1, scale p.2 x count) :: r else r

/-- `reduce_complexe_universe`, `extract_text6.cpp` L415-448. -/
def reduceComplex6 {P : Type} (scale : P → Nat → Nat → P) (img img90 : Image) : List Strat → List (Nat × P) → Res (List (Nat × P))
  | [], ps => .ok ps
  | s :: ss, ps => do
    let v ← s.load img img90
    let ps ← complexLoop scale s.rel s.tab v ps
    reduceComplex6 scale img img90 ss ps

/-- The values and limits of `reduce_exclusive_universe`, `extract_text6.cpp` L492-503, with the test of `has_value` on each,
L462-471. -/
def loadTests6 (img img90 : Image) : List Strat → Res (List (Nat → Res Bool))
  | [] => .ok []
  | s :: ss => do
    let v ← s.load img img90
    let r ← loadTests6 img img90 ss
    return (fun i => do
      let w ← rd s.tab i
      let x ← s.rel.compute w v
      return decide (s.rel.count / 2 ≤ x)) :: r

/-- `reduce_exclusive_universe`, `extract_text6.cpp` L478-518; the loops are those of `reduce_universe.hpp`. -/
def reduceExclusive6 {P : Type} (byWords : List (List Nat)) (img img90 : Image) (ss : List Strat) (ps : List (Nat × P)) :
    Res (List (Nat × P)) :=
  if ps.isEmpty then .ok ps
  else do
    let tests ← loadTests6 img img90 ss
    reduceByWord byWords (allTests tests) ps

/-- The words of the candidates up to the first one that `stop`s, `extract_text6.cpp` L649-656 and L671-678. -/
def gather6 {P : Type} (words : List Words) (stop : P → Bool) : List (Nat × P) → Res Words
  | [] => .ok []
  | p :: ps =>
    if stop p.2 then .ok []
    else do
      let v ← rd words p.1
      let r ← gather6 words stop ps
      return v ++ r

/-- `get_word`, `extract_text6.cpp` L626-631. -/
def getWord6 {P : Type} (words : List Words) (p : Nat × P) : Res (List Nat) := do
  let v ← rd words p.1
  rd v 0

/-- What `compute_image` makes of a letter: what it appends to `result1`, `result2` and `ambiguous`, and the list in the cache.
The string in the cache is `r1`. -/
structure Letter6 where
  r1 : List Nat
  r2 : List Nat
  amb : Words
  cached : Words
  deriving Repr, DecidableEq

/-- The string "_". -/
def unknown6 : List Nat := [95]

/-- `compute_image`, `extract_text6.cpp` L568-688. -/
def computeLetter6 (S : StdSort) (t : Tab6) (img img90 : Image) : Res Letter6 := do
  let ps ← candidates6 t img img90
  let tmp ← sortShow S Prob6.less t.words ps
  match tmp with
  | [] => return ⟨unknown6, unknown6, [], [unknown6]⟩
  | best :: _ => do
    let r1 ← getWord6 t.words best
    if !best.2.less ⟨1, 1⟩ then do
      let ws ← gather6 t.words (fun p => p.less ⟨1, 1⟩) tmp
      return ⟨r1, r1, ws, ws⟩
    else do
      let ps ← reduceComplex6 Prob6.mulDiv img img90 (complexStrats.map t.datas.strat6) ps
      let ps ← reduceExclusive6 t.byWords img img90 (exclusiveStrats.map t.datas.strat6) ps
      let ps ← sortShow S Prob6.less t.words ps
      match ps with
      | [] => return ⟨r1, unknown6, [], [unknown6]⟩
      | first :: _ => do
        let ws ← gather6 t.words (fun p => p.less first.2) ps
        let r2 ← getWord6 t.words first
        return ⟨r1, r2, ws, ws⟩

/-! ### The line -/

/-- The variables of the loop, `extract_text6.cpp` L262-287: the nodes of `sorted_img` as in `Model/Cache.lean`. -/
structure Line6 where
  cache : List (Image × Nat)
  st : List (List Nat × Words)
  amb : List Words
  res1 : List Nat
  res2 : List Nat

/-- The body of the loop, `extract_text6.cpp` L806-824; `compute` is `compute_image` on a picture and the turned one. -/
def letterStep6 (compute : Image → Image → Res Letter6) (i : Image) (x : Nat) (b : Box) (l : Line6) : Res Line6 := do
  let img ← i.section b.x b.y b.bounds
  let amb := if uadd x 4 < b.x then l.amb ++ [[[32]]] else l.amb
  let hit ← cacheFind img l.cache
  match hit with
  | some r => do
    let e ← rd l.st r
    let w ← rd e.2 0
    return { l with amb := amb ++ [e.2], res1 := l.res1 ++ e.1 ++ [32], res2 := l.res2 ++ w ++ [32] }
  | none => do
    let img90 ← img.rotate90
    let o ← compute img img90
    let (m, r) ← cacheEmplace img l.st.length l.cache
    return ⟨m, if r = l.st.length then l.st ++ [(o.r1, o.cached)] else l.st, amb ++ [o.amb], l.res1 ++ o.r1 ++ [32], l.res2 ++ o.r2 ++ [32]⟩

/-- The loop, `extract_text6.cpp` L800-827. -/
def lineLoop6 (compute : Image → Image → Res Letter6) (i : Image) : Nat → Nat → Line6 → Res Line6
  | 0, _, _ => .diverge
  | fuel + 1, x, l => do
    let b ← makeBox i x 0 i.bounds
    if b.truthy then do
      let l ← letterStep6 compute i x b l
      lineLoop6 compute i fuel (uadd b.x b.w) l
    else return l

/-! ### The text -/

/-- `search_fn`, `extract_text6.cpp` L833-845. -/
def isSep6 : Words → Bool
  | [] => true
  | [c] :: _ => decide (c ∈ [32, 39, 44, 46, 33, 63, 34])
  | _ => false

/-- The loop over separators, `extract_text6.cpp` L860-870: the text and what is behind it. -/
def sepLoop6 : List Words → List Nat → List Nat × List Words
  | [], out => (out, [])
  | [] :: ls, out => sepLoop6 ls (out ++ [63])
  | (w :: l) :: ls, out => if isSep6 (w :: l) then sepLoop6 ls (out ++ w) else (out, (w :: l) :: ls)

/-- The loop of the words, `extract_text6.cpp` L850-872. The memory behind `s.data()` ends with a zero. -/
def textLoop6 (E : List FNode) : Nat → List Words → List Nat → Res (List Nat)
  | 0, _, _ => .diverge
  | fuel + 1, ls, out =>
    if ls.isEmpty then .ok out
    else do
      let run := ls.takeWhile fun l => !isSep6 l
      let r ← disambiguous E (run.map fun l => l.map (· ++ [0])) out
      let q := sepLoop6 (ls.dropWhile fun l => !isSep6 l) (if r.1 then r.2 else r.2 ++ (run.filterMap List.head?).flatten)
      textLoop6 E fuel q.2 q.1

/-- `result3`, `extract_text6.cpp` L832-872. -/
def text6 (E : List FNode) (amb : List Words) : Res (List Nat) :=
  textLoop6 E (amb.length + 1) (amb.dropWhile isSep6) []

/-- What `extract_text6` prints at the end, L877-882. -/
structure Answer6 where
  res1 : List Nat
  res2 : List Nat
  res3 : List Nat
  deriving Repr, DecidableEq

/-- `main` of `extract_text6.cpp` L794-882, with the tables made. -/
def extract6 (compute : Image → Image → Res Letter6) (E : List FNode) (i : Image) : Res Answer6 := do
  let l ← lineLoop6 compute i (i.bounds.w + 1) 0 ⟨[], [], [], [], []⟩
  let r ← text6 E l.amb
  return ⟨l.res1, l.res2, r⟩

/-- `main` of `extract_text6.cpp` L732-882. -/
def program6 (S : StdSort) (f : ProgFiles) : Res Answer6 := do
  let E ← loadDict f.dict
  let d ← loadDatas f.datas
  let gs ← loadLGlyphs f.glyphs
  if gs.length ≠ d.size then .throw
  else do
    let ws ← allWords gs
    let (ws, d) ← order6 S d ws
    let t ← build6 d ws
    let i ← loadImage f.image 128
    extract6 (computeLetter6 S t) E i

end Ppocr

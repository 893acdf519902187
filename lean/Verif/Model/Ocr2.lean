import Verif.Model.Relationship
import Verif.Model.Std

/-!
# Recognition of one letter image

Model of `src/ppocr/ocr2/{indexes_ordered,data_indexes_ordered,probabilities,reduce_universe,
sort_probabilities,insert_views,compute_image,views_index_ordered}.hpp` and `data_indexes_by_words.cpp`.

A `Probabilities` buffer (probabilities.hpp L33-79) is the list of its entries, with its capacity wherever
entries are appended (`emplace_back`, the output of `unique_copy`): writing beyond it is undefined.
An entry is the glyph index and a payload: nothing (`Unit`) until `initialize_probability` has written the
probability, the probability afterwards; reading an unwritten probability is thus impossible to express.
The cached contexts are left out here: see `Model/Datas.lean` and C26.
-/

namespace Ppocr

/-- `struct View` (glyphs.hpp L31-34). -/
structure View where
  word : Nat
  font : Nat
  deriving Repr, DecidableEq

/-- A simple strategy with its data table: an `interval_relationship<unsigned, k>` (all of
`PpOcrSimpleDatas`, defined_loader.hpp L107-127). -/
structure Simple where
  k : Nat
  load : Image → Image → Res Nat
  tab : List Nat

/-- A complex or exclusive strategy with its data table. -/
structure Strat where
  V : Type
  rel : Rel V
  load : Image → Image → Res V
  tab : List V

/-! ### Index ordered by the first feature -/

/-- The constructor of `IndexesOrdered` (indexes_ordered.hpp L36-44). -/
def indexesOrdered (S : StdSort) (data : List Nat) : List Nat :=
  S.sort (fun i j => decide (data.getD i 0 < data.getD j 0)) (List.range data.length)

/-- `range_bounds` (indexes_ordered.hpp L56-75). -/
def rangeBounds (data idx : List Nat) (start stop : Nat) : Res (List Nat) := do
  let first ← partitionPoint (fun k => do
    let i ← rd idx k
    let v ← rd data i
    return decide (v < start)) (data.length + 1) 0 data.length
  let last ← partitionPoint (fun k => do
    let i ← rd idx k
    let v ← rd data i
    return !decide (stop < v)) (data.length + 1) first (data.length - first)
  return (idx.drop first).take (last - first)

/-- `DataIndexesOrdered::get_range` (data_indexes_ordered.hpp L42-50). -/
def getRange (data idx : List Nat) (x d : Nat) : Res (List Nat) :=
  rangeBounds data idx (if x > d then usub x d else 0) (uadd x d)

/-! ### Reductions -/

section
variable {P : Type} [Dbl P]

/-- `reduce_universe_with_distance` (reduce_universe.hpp L39-52) through `Data::in_dist_with`
(datas_loader.hpp L156-159). -/
def reduceWithDistance {β V : Type} (rel : Rel V) (tab : List V) (value : V) (d : Nat)
    (ps : List (Nat × β)) : Res (List (Nat × β)) :=
  removeIf (fun p => do
    let v ← rd tab p.1
    rel.inDist v value d) ps

/-- The loop of `reduce_universe_and_update_probability` (reduce_universe.hpp L54-70) through
`Data::dist_with` (datas_loader.hpp L150-154). -/
def reduceAndUpdate {V : Type} (rel : Rel V) (tab : List V) (value : V) (limit : P) :
    List (Nat × P) → Res (List (Nat × P))
  | [] => .ok []
  | p :: ps => do
    let v ← rd tab p.1
    let c ← rel.compute value v
    assert (decide (c ≤ 100))
    let x : P := Dbl.ofPct c
    let r ← reduceAndUpdate rel tab value limit ps
    return if Dbl.le limit x then (p.1, Dbl.mul p.2 x) :: r else r

/-- The inner loop of `reduce_universe_by_word` (reduce_universe.hpp L85-91). -/
def anyRes (pred : Nat → Res Bool) : List Nat → Res Bool
  | [] => .ok false
  | i :: l => do
    let b ← pred i
    if b then return true else anyRes pred l

/-- The test of `reduce_universe_by_word` on one entry (reduce_universe.hpp L80-92). -/
def keepByWord (byWords : List (List Nat)) (pred : Nat → Res Bool) (i : Nat) : Res Bool := do
  let l ← rd byWords i
  if l.isEmpty then return true else anyRes pred l

/-- `reduce_universe_by_word` (reduce_universe.hpp L72-95). -/
def reduceByWord {β : Type} (byWords : List (List Nat)) (pred : Nat → Res Bool) :
    List (Nat × β) → Res (List (Nat × β))
  | [] => .ok []
  | p :: ps => do
    let k ← keepByWord byWords pred p.1
    let r ← reduceByWord byWords pred ps
    return if k then p :: r else r

/-! ### Sorting -/

/-- `EqProbByViews` (sort_probabilities.hpp L29-34). -/
def eqViews {β : Type} (ids : List Nat) (a b : Nat × β) : Res Bool := do
  let x ← rd ids a.1
  let y ← rd ids b.1
  return decide (x = y)

/-- `LtProbByViews` (sort_probabilities.hpp L36-44). -/
def ltByViews (ids : List Nat) (a b : Nat × P) : Bool :=
  if ids.getD a.1 0 = ids.getD b.1 0 then gtP a.2 b.2
  else decide (ids.getD a.1 0 < ids.getD b.1 0)

/-- `sort_by_views` (sort_probabilities.hpp L67-69); the comparator is not called on fewer than two
elements. -/
def sortByViews (S : StdSort) (ids : List Nat) (ps : List (Nat × P)) : Res (List (Nat × P)) :=
  if ps.length ≤ 1 then .ok ps
  else if ps.all (fun p => decide (p.1 < ids.length)) then .ok (S.sort (ltByViews ids) ps)
  else .ub

/-- `sort_by_prop` (sort_probabilities.hpp L71-73). -/
def sortByProb (S : StdSort) (ps : List (Nat × P)) : List (Nat × P) :=
  if ps.length ≤ 1 then ps else S.sort (fun a b => gtP a.2 b.2) ps

/-- `unique_by_views` (sort_probabilities.hpp L59-65). -/
def uniqueByViews (ids : List Nat) (ps : List (Nat × P)) : Res (List (Nat × P)) :=
  uniqueBy (eqViews ids) ps

/-- `unique_copy_by_views` (sort_probabilities.hpp L46-57) into a buffer of `cap` entries. -/
def uniqueCopyByViews (cap : Nat) (ids : List Nat) (ps : List (Nat × P)) : Res (List (Nat × P)) := do
  let r ← uniqueBy (eqViews ids) ps
  if r.length ≤ cap then return r else .ub

/-- `insert_views` (insert_views.hpp L28-41) appended to an empty list. -/
def insertViews (glyphs : List (List View)) (limit : P) : List (Nat × P) → Res (List View)
  | [] => .ok []
  | p :: ps =>
    if !Dbl.le limit p.2 then .ok []
    else do
      let v ← rd glyphs p.1
      let r ← insertViews glyphs limit ps
      return v ++ r

/-! ### compute_image -/

/-- The loop of `initialize_universe` (compute_image.hpp L100-102). -/
def emplaceAll (cap : Nat) : List Nat → List (Nat × Unit) → Res (List (Nat × Unit))
  | [], ps => .ok ps
  | i :: l, ps => if ps.length < cap then emplaceAll cap l (ps ++ [(i, ())]) else .ub

/-- `(count() - 1) / 10u` (compute_image.hpp L99, L153). -/
def tenth (k : Nat) : Nat := usub (intervalRel k).count 1 / 10

/-- `initialize_universe` (compute_image.hpp L91-103). -/
def initializeUniverse (cap : Nat) (s : Simple) (idx : List Nat) (value : Nat) :
    Res (List (Nat × Unit)) := do
  let r ← getRange s.tab idx value (tenth s.k)
  emplaceAll cap r []

/-- `value_for_strategies` (compute_image.hpp L58-65) for the simple strategies. -/
def loadSimple (img img90 : Image) : List Simple → Res (List (Simple × Nat))
  | [] => .ok []
  | s :: ss => do
    let v ← s.load img img90
    let r ← loadSimple img img90 ss
    return (s, v) :: r

/-- The fold of `reduce_universe_with_distance` (compute_image.hpp L149-154). -/
def reduceSimple : List (Simple × Nat) → List (Nat × Unit) → Res (List (Nat × Unit))
  | [], ps => .ok ps
  | (s, v) :: ss, ps => do
    let ps ← reduceWithDistance (intervalRel s.k) s.tab v (tenth s.k) ps
    reduceSimple ss ps

/-- `initialize_probability` (compute_image.hpp L105-110). -/
def initProb (s : Simple) (value : Nat) : List (Nat × Unit) → Res (List (Nat × P))
  | [] => .ok []
  | p :: ps => do
    let v ← rd s.tab p.1
    let c ← (intervalRel s.k).compute v value
    let r ← initProb s value ps
    return (p.1, Dbl.ofPct c) :: r

/-- `update_probability` (compute_image.hpp L112-117). -/
def updateProb (s : Simple) (value : Nat) : List (Nat × P) → Res (List (Nat × P))
  | [] => .ok []
  | p :: ps => do
    let v ← rd s.tab p.1
    let c ← (intervalRel s.k).compute v value
    let r ← updateProb s value ps
    return (p.1, Dbl.mul p.2 (Dbl.ofPct c)) :: r

/-- The fold of `update_probability` (compute_image.hpp L162-166). -/
def updateAll : List (Simple × Nat) → List (Nat × P) → Res (List (Nat × P))
  | [], ps => .ok ps
  | (s, v) :: ss, ps => do
    let ps ← updateProb s v ps
    updateAll ss ps

/-- `compute_simple_universe` (compute_image.hpp L119-167). -/
def computeSimpleUniverse (cap : Nat) (s : Simple) (ss : List Simple) (idx : List Nat)
    (img img90 : Image) : Res (List (Nat × P)) := do
  let first ← s.load img img90
  let ps ← initializeUniverse cap s idx first
  let store ← loadSimple img img90 ss
  let ps ← reduceSimple store ps
  let ps ← initProb s first ps
  updateAll store ps

/-- `reduce_complexe_universe` (compute_image.hpp L35-50). -/
def reduceComplex (img img90 : Image) : List Strat → List (Nat × P) → Res (List (Nat × P))
  | [], ps => .ok ps
  | s :: ss, ps => do
    let v ← s.load img img90
    let ps ← reduceAndUpdate s.rel s.tab v (Dbl.ofPct 50) ps
    reduceComplex img img90 ss ps

/-- `value_for_strategies` (compute_image.hpp L58-65) for the exclusive strategies: the test of each
strategy (compute_image.hpp L82-86) on the value loaded. -/
def loadExclusive (img img90 : Image) : List Strat → Res (List (Nat → Res Bool))
  | [] => .ok []
  | s :: ss => do
    let v ← s.load img img90
    let r ← loadExclusive img img90 ss
    return (fun i => do
      let w ← rd s.tab i
      s.rel.inDist w v (s.rel.count / 2)) :: r

/-- The fold over `&&` (compute_image.hpp L82-86). -/
def allTests : List (Nat → Res Bool) → Nat → Res Bool
  | [], _ => .ok true
  | t :: ts, i => do
    let b ← t i
    if b then allTests ts i else return false

/-- `reduce_exclusive_universe` (compute_image.hpp L67-88). -/
def reduceExclusive (byWords : List (List Nat)) (img img90 : Image) (ss : List Strat)
    (ps : List (Nat × P)) : Res (List (Nat × P)) :=
  if ps.isEmpty then .ok ps
  else do
    let tests ← loadExclusive img img90 ss
    reduceByWord byWords (allTests tests) ps

/-- What `compute_image` is given besides the image. -/
structure Setup (P : Type) where
  sort : StdSort
  first : Simple
  simple : List Simple
  complex : List Strat
  exclusive : List Strat
  cap : Nat
  capTmp : Nat
  idx : List Nat
  byWords : List (List Nat)
  glyphs : List (List View)
  ids : List Nat
  limit : P

/-- The result of `compute_image` with the two buffers it leaves. -/
structure Outcome (P : Type) where
  views : List View
  probs : List (Nat × P)
  tmp : List (Nat × P)
  deriving Repr, DecidableEq

/-- The end of `compute_image` (compute_image.hpp L221-227). -/
def finish (s : Setup P) (ps tmp : List (Nat × P)) : Res (Outcome P) := do
  let ps ← uniqueByViews s.ids ps
  let ps := sortByProb s.sort ps
  match ps with
  | [] => return ⟨[], ps, tmp⟩
  | best :: _ => do
    let v ← insertViews s.glyphs (Dbl.mul best.2 s.limit) ps
    return ⟨v, ps, tmp⟩

/-- `compute_image` (compute_image.hpp L170-228); `tmp0` is what the second buffer holds on entry. -/
def computeImage (s : Setup P) (tmp0 : List (Nat × P)) (img img90 : Image) : Res (Outcome P) := do
  let ps ← computeSimpleUniverse s.cap s.first s.simple s.idx img img90
  let ps ← sortByViews s.sort s.ids ps
  if s.complex.isEmpty && s.exclusive.isEmpty then finish s ps tmp0
  else do
    let tmp ← uniqueCopyByViews s.capTmp s.ids ps
    let tmp := sortByProb s.sort tmp
    match tmp with
    | [] => return ⟨[], ps, tmp⟩
    | best :: _ =>
      if Dbl.le (Dbl.ofPct 100) best.2 then do
        let v ← insertViews s.glyphs (Dbl.ofPct 100) tmp
        return ⟨v, ps, tmp⟩
      else do
        let ps ← reduceComplex img img90 s.complex ps
        let ps ← reduceExclusive s.byWords img img90 s.exclusive ps
        let ps ← sortByViews s.sort s.ids ps
        finish s ps tmp

end

/-! ### Tables computed from the glyphs -/

/-- `EqViews` (glyphs.hpp L104-108). -/
def eqWords (a b : List View) : Bool := decide (a.map View.word = b.map View.word)

/-- Comparison of the first difference (glyphs.hpp L118-122). -/
def ltWords : List View → List View → Bool
  | a :: as, b :: bs => if a.word = b.word then ltWords as bs else decide (a.word < b.word)
  | _, _ => false

/-- `LtViews` (glyphs.hpp L110-124). -/
def ltViews (a b : List View) : Bool :=
  if a.length < b.length then true
  else if a.length > b.length then false
  else ltWords a b

/-- The loop "re-assign duplication" (views_index_ordered.hpp L38-42) behind the first element. -/
def reassign (glyphs : List (List View)) : Nat → List Nat → List Nat
  | _, [] => []
  | prev, r :: rs =>
    let r := if eqWords (glyphs.getD r []) (glyphs.getD prev []) then prev else r
    r :: reassign glyphs r rs

/-- `get_views_indexes_ordered` (views_index_ordered.hpp L29-52); a reference to a glyph is its index. -/
def viewsIndexes (S : StdSort) (glyphs : List (List View)) : List Nat :=
  match S.sort (fun i j => ltViews (glyphs.getD i []) (glyphs.getD j [])) (List.range glyphs.length) with
  | [] => []
  | r :: rs => r :: reassign glyphs r rs

/-- `map[word].emplace_back(n)` on a `std::map`, as an association list in key order. -/
def mapAdd (w n : Nat) : List (Nat × List Nat) → List (Nat × List Nat)
  | [] => [(w, [n])]
  | (k, l) :: m =>
    if w < k then (w, [n]) :: (k, l) :: m
    else if w = k then (k, l ++ [n]) :: m
    else (k, l) :: mapAdd w n m

/-- The first loop of the constructor of `DataIndexesByWords` (data_indexes_by_words.cpp L28-32). -/
def collectWords : List (List View) → Nat → List (Nat × List Nat) → Res (List (Nat × List Nat))
  | [], _, m => .ok m
  | vs :: gs, n, m =>
    match vs with
    | [] => .ub
    | v :: _ => collectWords gs (n + 1) (mapAdd v.word n m)

/-- The loop with `swap` (data_indexes_by_words.cpp L40-44): `pre` is the part already visited. -/
def swapLoop : List Nat → List Nat → Nat → List (List Nat) → List (List Nat)
  | _, [], _, t => t
  | pre, i :: rest, tmp, t =>
    swapLoop (pre ++ [tmp]) rest i (t.set i (pre ++ tmp :: rest))

/-- One group of the second loop (data_indexes_by_words.cpp L36-45). -/
def fillGroup (l : List Nat) (t : List (List Nat)) : List (List Nat) :=
  match l.reverse with
  | tmp :: _ :: _ =>
    let rest := l.dropLast
    swapLoop [] rest tmp (t.set tmp rest)
  | _ => t

/-- The constructor of `DataIndexesByWords` (data_indexes_by_words.cpp L24-47). -/
def dataIndexesByWords (glyphs : List (List View)) : Res (List (List Nat)) := do
  let m ← collectWords glyphs 0 []
  return m.foldl (fun t p => fillGroup p.2 t) (List.replicate glyphs.length [])

end Ppocr

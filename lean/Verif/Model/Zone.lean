import Verif.Model.Image
import Verif.Sort

/-!
# Zones

Model of `src/ppocr/strategies/utils/count_zone.hpp`, `zone.cpp` and `proportionality_zone.cpp`.

`Buffer::alloc_and_init_to_zero(n)` (count_zone.hpp L35-43) zeroes the first `n` cells of a buffer of at
least `n` cells, whether or not it reallocates; the model gives exactly `n` zero cells and treats
accesses behind them as undefined although the code may own up to `2n` cells.
`memset(nullptr, 0, 0)` (an image without zone, first call) is taken to do nothing.
-/

namespace Ppocr

/-- The two halves of the work buffer (count_zone.hpp L183-184): the label of each pixel and the stack,
top first. -/
structure Fill where
  mirror : List Nat
  stack : List Nat
  deriving Repr, DecidableEq

/-- The lambda `push_if` (count_zone.hpp L200-205); `cap` is the room for the stack. -/
def pushIf (data : List Pixel) (z cap q : Nat) (s : Fill) : Res Fill := do
  let m ← rd s.mirror q
  if m ≠ 0 then return s
  else do
    let v ← rd data q
    if isLetter v then return s
    else if s.stack.length < cap then return ⟨s.mirror.set q z, q :: s.stack⟩
    else .ub

/-- `if (c) push_if(q)`. -/
def pushWhen (c : Bool) (data : List Pixel) (z cap q : Nat) (s : Fill) : Res Fill :=
  if c then pushIf data z cap q s else .ok s

/-- One turn of the flood fill (count_zone.hpp L197-218). -/
def fillStep (i : Image) (z cap idx : Nat) (s : Fill) : Res Fill :=
  let w := i.bounds.w
  if w = 0 then .ub
  else do
    let x := idx % w
    let y := idx / w
    let s ← pushWhen (decide (y ≠ 0)) i.data z cap (usub idx w) s
    let s ← pushWhen (decide (uadd y 1 ≠ i.bounds.h)) i.data z cap (uadd idx w) s
    let s ← pushWhen (decide (x ≠ 0)) i.data z cap (usub idx 1) s
    pushWhen (decide (uadd x 1 ≠ w)) i.data z cap (uadd idx 1) s

/-- The flood fill (count_zone.hpp L196-225). -/
def fillLoop (i : Image) (z cap : Nat) : Nat → Nat → Fill → Res (List Nat)
  | 0, _, _ => .diverge
  | fuel + 1, idx, s => do
    let s ← fillStep i z cap idx s
    match s.stack with
    | [] => return s.mirror
    | q :: rest => fillLoop i z cap fuel q ⟨s.mirror, rest⟩

/-- The loop over the pixels (count_zone.hpp L188-228); the first argument is the number of pixels left,
`p` the position and `z` the variable `count_zone`. -/
def labelLoop (i : Image) (cap : Nat) : Nat → Nat → List Nat → Nat → Res (List Nat × Nat)
  | 0, _, m, z => .ok (m, z)
  | n + 1, p, m, z => do
    let l ← rd m p
    if l ≠ 0 then labelLoop i cap n (p + 1) m z
    else do
      let v ← rd i.data p
      if isLetter v then labelLoop i cap n (p + 1) m z
      else do
        let m ← fillLoop i z cap (i.bounds.area + 1) p ⟨m.set p z, []⟩
        labelLoop i cap n (p + 1) m (uadd z 1)

/-- The labelling part of `count_zone_fn::compute` (count_zone.hpp L183-228): the labels and the number
of zones (`count_zone - 1`). -/
def labelZones (i : Image) : Res (List Nat × Nat) := do
  let n := uadd (umul i.bounds.area 2) 2
  let (m, z) ← labelLoop i (n - i.bounds.area) i.bounds.area 0
    (List.replicate (min i.bounds.area n) 0) 1
  return (m, usub z 1)

/-- `struct ZoneInfo` (count_zone.hpp L102-165) with its four views. -/
structure ZoneInfo where
  count : Nat
  top : List Nat
  right : List Nat
  bottom : List Nat
  left : List Nat
  deriving Repr, DecidableEq

/-- `++m.writable_get(k)` (count_zone.hpp L95-99, L235). -/
def bump (l : List Nat) (k : Nat) : Res (List Nat) := do
  assert (decide (k < l.length))
  let v ← rd l k
  return l.set k (uadd v 1)

/-- The lambda `insert` (count_zone.hpp L232-237). -/
def insertZone (i : Image) (m : List Nat) (l : List Nat) (x y : Nat) : Res (List Nat) := do
  let z ← rd m (i.toSizeT x y)
  if z ≠ 0 then bump l (usub z 1) else return l

/-- The loop over the columns (count_zone.hpp L239-242). -/
def borderRows (i : Image) (m : List Nat) : Nat → Nat → List Nat → List Nat → Res (List Nat × List Nat)
  | 0, _, t, b => .ok (t, b)
  | n + 1, x, t, b => do
    let t ← insertZone i m t x 0
    let b ← insertZone i m b x (usub i.bounds.h 1)
    borderRows i m n (x + 1) t b

/-- The loop over the rows (count_zone.hpp L244-247). -/
def borderCols (i : Image) (m : List Nat) : Nat → Nat → List Nat → List Nat → Res (List Nat × List Nat)
  | 0, _, l, r => .ok (l, r)
  | n + 1, y, l, r => do
    let l ← insertZone i m l 0 y
    let r ← insertZone i m r (usub i.bounds.w 1) y
    borderCols i m n (y + 1) l r

/-- `count_zone_fn::compute` (count_zone.hpp L181-248).  `zone.alloc` reserves `count * 4` cells, a
32-bit product; when it wraps the views do not fit. -/
def countZone (i : Image) : Res ZoneInfo := do
  let (m, c) ← labelZones i
  if c * 4 < W32 then do
    let z := List.replicate c 0
    let (t, b) ← borderRows i m i.bounds.w 0 z z
    let (l, r) ← borderCols i m i.bounds.h 0 z z
    return ⟨c, t, r, b, l⟩
  else .ub

/-- `MappingZoneView::count_used_zone` (count_zone.hpp L78-87). -/
def countUsed (l : List Nat) : Nat := l.countP fun n => n != 0

/-- `ZoneInfo::count_total_used_zone` (count_zone.hpp L137-150). -/
def ZoneInfo.totalUsed (z : ZoneInfo) : Nat :=
  (List.range z.count).countP fun k =>
    (z.top.getD k 0 != 0) || (z.right.getD k 0 != 0) || (z.bottom.getD k 0 != 0) ||
      (z.left.getD k 0 != 0)

/-- `zone::load` (zone.cpp L25-40). -/
def zoneLoad (i : Image) : Res (List Nat) := do
  let info ← countZone i
  let a ← i.get 0 0
  let b ← i.get (usub i.bounds.w 1) (usub i.bounds.h 1)
  return [(isLetter a).toNat, (isLetter b).toNat, countUsed info.top, countUsed info.right,
    countUsed info.bottom, countUsed info.left, usub info.count info.totalUsed]

/-- The conditional of `proportionality_zone::load` (proportionality_zone.cpp L39-43). -/
def ZoneInfo.value (z : ZoneInfo) (k : Nat) : Nat :=
  if z.top.getD k 0 ≠ 0 then z.top.getD k 0
  else if z.right.getD k 0 ≠ 0 then z.right.getD k 0
  else if z.bottom.getD k 0 ≠ 0 then z.bottom.getD k 0
  else z.left.getD k 0

/-- `proportionality_zone::load` (proportionality_zone.cpp L28-60).  `std::sort` on a vector of numbers is
any algorithm that returns the sorted permutation: `sortNat`. -/
def propZoneLoad (i : Image) : Res (List Nat) := do
  let info ← countZone i
  let vs := ((List.range info.count).map info.value).filter fun v => v != 0
  let area := vs.foldl uadd 0
  let r ← vs.mapM fun n => udiv (umul n 100) area
  return sortNat r

end Ppocr

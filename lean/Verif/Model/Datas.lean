import Verif.Model.Zone
import Verif.Model.Features
import Verif.Model.DzDensity
import Verif.Model.Alternations

/-!
# Contexts and tables of features

Model of `src/ppocr/strategies/utils/context.hpp`, `src/ppocr/loader2/datas_loader.hpp` and of the lists of
strategies in `src/ppocr/defined_loader.hpp`.
-/

namespace Ppocr

/-- `enum class PolicyLoader` (datas_loader.hpp L38). -/
inductive Policy
  | img
  | img90
  deriving Repr, DecidableEq

/-- The strategies of `defined_loader.hpp` L107-138. -/
inductive Feat
  | dvgravity2 | dvdirection2 | dzdensity | hdirection | hdirection2 | hgravity | hgravity2
  | proportionality | dvdirection | dvgravity | density | hbar | alternations | zone | propZone
  deriving Repr, DecidableEq

/-- The length of the interval of a simple feature, the second argument of its `interval_relationship`: `hdirection.hpp` L35,
`hgravity.hpp` L35, `dvdirection.hpp` L35, `dvgravity.hpp` L35; 100 in `density.hpp` L34, `dzdensity.hpp` L46,
`proportionality.hpp` L34 and L35 of the four `…2.hpp`. -/
def Feat.k : Feat → Nat
  | .hdirection | .hgravity | .dvdirection | .dvgravity => 200
  | _ => 100

/-- A `value_type`: `unsigned`, an array or vector of `unsigned`, or an array of `alternations_type`. -/
inductive Value
  | num (n : Nat)
  | arr (l : List Nat)
  | alt (l : List (Bool × Nat))
  deriving Repr, DecidableEq

/-! ### Contexts -/

/-- The context functions that compute a `TopBottom`. -/
inductive TopFn
  | hdir | hgrav | dvdir | dvgrav
  deriving Repr, DecidableEq

/-- `compute` of each of them. -/
def TopFn.compute : TopFn → Image → Res TopBottom
  | .hdir => horizontalDirection
  | .hgrav => horizontalGravity
  | .dvdir => diagDirection
  | .dvgrav => diagGravity

/-- `cache_context` (context.hpp L21-41): the flag and what the last `compute` left, nothing before the
first one. -/
structure Cache (V : Type) where
  loaded : Bool
  val : Option V
  deriving Repr, DecidableEq

/-- `cache_context::compute` (context.hpp L24-32); reading a value never computed is undefined. -/
def Cache.compute {V : Type} (f : Image → Res V) (img : Image) (c : Cache V) : Res (V × Cache V) :=
  if c.loaded then
    match c.val with
    | some v => .ok (v, c)
    | none => .ub
  else do
    let v ← f img
    return (v, ⟨true, some v⟩)

/-- `cache_context::reset` (context.hpp L34-37). -/
def Cache.reset {V : Type} (c : Cache V) : Cache V := ⟨false, c.val⟩

/-- `unique_contexts_t` (context.hpp L43-75) over the contexts of the strategies: one sub-object for each
context function and policy, `MakeRotatedCtx` (datas_loader.hpp L40-50) making the types of the two policies
distinct. -/
structure Ctxs where
  tops : TopFn → Policy → Cache TopBottom
  zones : Policy → Cache ZoneInfo

/-- `contexts_t::reset` (context.hpp L48-51). -/
def Ctxs.reset (c : Ctxs) : Ctxs := ⟨fun f p => (c.tops f p).reset, fun p => (c.zones p).reset⟩

/-- A context just constructed. -/
def Ctxs.fresh : Ctxs := ⟨fun _ _ => ⟨false, none⟩, fun _ => ⟨false, none⟩⟩

/-- `ctx.compute(img)` on the sub-object of a `TopBottom` function, followed by `k` on the result. -/
def Ctxs.top (c : Ctxs) (f : TopFn) (p : Policy) (img : Image) (k : TopBottom → Res Nat) :
    Res (Value × Ctxs) := do
  let (t, s) ← (c.tops f p).compute f.compute img
  let v ← k t
  return (.num v, { c with tops := fun g q => if g = f ∧ q = p then s else c.tops g q })

/-- The same for `count_zone_fn`. -/
def Ctxs.zone (c : Ctxs) (p : Policy) (img : Image) (k : ZoneInfo → Res (List Nat)) :
    Res (Value × Ctxs) := do
  let (t, s) ← (c.zones p).compute countZone img
  let v ← k t
  return (.arr v, { c with zones := fun q => if q = p then s else c.zones q })

/-! ### Strategies with a context -/

/-- `zone::load` behind `ctx.compute` (zone.cpp L29-39). -/
def zoneOf (i : Image) (info : ZoneInfo) : Res (List Nat) := do
  let a ← i.get 0 0
  let b ← i.get (usub i.bounds.w 1) (usub i.bounds.h 1)
  return [(isLetter a).toNat, (isLetter b).toNat, countUsed info.top, countUsed info.right,
    countUsed info.bottom, countUsed info.left, usub info.count info.totalUsed]

/-- `proportionality_zone::load` behind `ctx.compute` (proportionality_zone.cpp L34-59). -/
def propZoneOf (info : ZoneInfo) : Res (List Nat) := do
  let vs := ((List.range info.count).map info.value).filter fun v => v != 0
  let area := vs.foldl uadd 0
  let r ← vs.mapM fun n => udiv (umul n 100) area
  return sortNat r

/-- `if (!area) return 50;` and the common end of the four `…2` strategies (hdirection2.cpp L28-35 and its
copies). -/
def Ctxs.top2 (c : Ctxs) (f : TopFn) (p : Policy) (img : Image) (zero : Bool) (k : TopBottom → Res Nat) :
    Res (Value × Ctxs) :=
  if zero then .ok (.num 50, c) else c.top f p img k

/-- `Strategy_::load` with its context; `i` and `r` are the arguments of that call, already exchanged by
`Strategy::load` when the policy is `img90`. -/
def Feat.loadIn (f : Feat) (p : Policy) (i r : Image) (c : Ctxs) : Res (Value × Ctxs) :=
  match f with
  | .hdirection => c.top .hdir p i ratio200
  | .hgravity => c.top .hgrav p i ratio200
  | .dvdirection => c.top .dvdir p i ratio200
  | .dvgravity => c.top .dvgrav p i ratio200
  | .hdirection2 =>
    let hby2 := i.bounds.h / 2
    let area := umul hby2 i.bounds.w
    c.top2 .hdir p i (decide (hby2 = 0)) fun t => percent area t (umul area 2)
  | .hgravity2 =>
    let hby2 := i.bounds.h / 2
    let area := umul (umul hby2 (uadd hby2 1) / 2) i.bounds.w
    c.top2 .hgrav p i (decide (hby2 = 0)) fun t => percent area t (umul area 2)
  | .dvdirection2 => do
    let area ← diagDirArea i
    c.top2 .dvdir p i (decide (area = 0)) fun t => percent (uadd t.top t.bottom) t area
  | .dvgravity2 => do
    let area ← diagGravArea i
    c.top2 .dvgrav p i (decide (area = 0)) fun t => percent (uadd t.top t.bottom) t area
  | .dzdensity => do return (.num (← dzdensityLoad i), c)
  | .proportionality => do return (.num (← proportionalityLoad i), c)
  | .density => do return (.num (← densityLoad i), c)
  | .hbar => do return (.num (← hbarLoad i), c)
  | .alternations => do return (.alt (← alternationsLoad i r), c)
  | .zone => c.zone p i (zoneOf i)
  | .propZone => c.zone p i propZoneOf

/-- `Strategy<S, Policy>::load` (datas_loader.hpp L61-69). -/
def stratLoad (s : Feat × Policy) (img img90 : Image) (c : Ctxs) : Res (Value × Ctxs) :=
  match s.2 with
  | .img => s.1.loadIn .img img img90 c
  | .img90 => s.1.loadIn .img90 img90 img c

/-- A strategy without its cache: the context is computed each time. -/
def Feat.load (f : Feat) (i r : Image) : Res Value :=
  match f with
  | .hdirection => do return .num (← hdirectionLoad i)
  | .hgravity => do return .num (← hgravityLoad i)
  | .dvdirection => do return .num (← dvdirectionLoad i)
  | .dvgravity => do return .num (← dvgravityLoad i)
  | .hdirection2 => do return .num (← hdirection2Load i)
  | .hgravity2 => do return .num (← hgravity2Load i)
  | .dvdirection2 => do return .num (← dvdirection2Load i)
  | .dvgravity2 => do return .num (← dvgravity2Load i)
  | .dzdensity => do return .num (← dzdensityLoad i)
  | .proportionality => do return .num (← proportionalityLoad i)
  | .density => do return .num (← densityLoad i)
  | .hbar => do return .num (← hbarLoad i)
  | .alternations => do return .alt (← alternationsLoad i r)
  | .zone => do return .arr (← zoneLoad i)
  | .propZone => do return .arr (← propZoneLoad i)

/-- What can happen to a context: `reset` for a new image (compute_image.hpp L194, datas_loader.hpp L217),
or the load of a strategy on the current image. -/
inductive CtxOp
  | start (img img90 : Image)
  | load (s : Feat × Policy)

/-- The values loaded by a sequence of operations. -/
def runOps : List CtxOp → Image → Image → Ctxs → Res (List Value)
  | [], _, _, _ => .ok []
  | .start i r :: ops, _, _, c => runOps ops i r c.reset
  | .load s :: ops, i, r, c => do
    let (v, c) ← stratLoad s i r c
    let vs ← runOps ops i r c
    return v :: vs

/-! ### Tables -/

/-- `Data<Strategy>` (datas_loader.hpp L114-186). -/
structure Table where
  strat : Feat × Policy
  vals : List Value
  deriving Repr, DecidableEq

/-- `Datas` (datas_loader.hpp L188-233). -/
structure Datas where
  tables : List Table
  ctx : Ctxs

/-- The fold of `Data::load` (datas_loader.hpp L142-144, L218-220). -/
def loadTables (img img90 : Image) : List Table → Ctxs → Res (List Table × Ctxs)
  | [], c => .ok ([], c)
  | t :: ts, c => do
    let (v, c) ← stratLoad t.strat img img90 c
    let (ts, c) ← loadTables img img90 ts c
    return (⟨t.strat, t.vals ++ [v]⟩ :: ts, c)

/-- `Datas::load` (datas_loader.hpp L215-221). -/
def Datas.load (d : Datas) (img : Image) : Res Datas := do
  let img90 ← img.rotate90
  let (ts, c) ← loadTables img img90 d.tables d.ctx.reset
  return ⟨ts, c⟩

/-- Successive calls of `Datas::load`. -/
def Datas.loadAll : Datas → List Image → Res Datas
  | d, [] => .ok d
  | d, i :: is => do
    let d ← d.load i
    d.loadAll is

/-- `PpOcrSimpleDatas` (defined_loader.hpp L107-127). -/
def simpleStrats : List (Feat × Policy) :=
  [(.dvgravity2, .img90), (.dvdirection2, .img90), (.dzdensity, .img), (.dzdensity, .img90),
   (.dvdirection2, .img), (.dvgravity2, .img), (.hdirection, .img), (.hdirection, .img90),
   (.hdirection2, .img), (.hdirection2, .img90), (.hgravity, .img), (.hgravity, .img90),
   (.hgravity2, .img), (.hgravity2, .img90), (.proportionality, .img), (.dvdirection, .img),
   (.dvdirection, .img90), (.dvgravity, .img), (.dvgravity, .img90), (.density, .img)]

/-- `PpOcrComplexDatas` (defined_loader.hpp L129-133). -/
def complexStrats : List (Feat × Policy) := [(.hbar, .img), (.hbar, .img90), (.alternations, .img)]

/-- `PpOcrExclusiveDatas` (defined_loader.hpp L135-138). -/
def exclusiveStrats : List (Feat × Policy) := [(.zone, .img), (.propZone, .img)]

/-- `PpOcrDatas` (defined_loader.hpp L143-147), empty. -/
def Datas.empty : Datas :=
  ⟨(simpleStrats ++ complexStrats ++ exclusiveStrats).map fun s => ⟨s, []⟩, Ctxs.fresh⟩

/-! ### Comparison of rows -/

/-- `std::lexicographical_compare`. -/
def lexLt {α : Type} (lt : α → α → Bool) : List α → List α → Bool
  | [], [] => false
  | [], _ :: _ => true
  | _ :: _, [] => false
  | a :: as, b :: bs => if lt a b then true else if lt b a then false else lexLt lt as bs

/-- `alternations_type::operator<` (alternations.hpp L95-99). -/
def altLt (a b : Bool × Nat) : Bool := decide (a.2 < b.2) || (decide (a.2 = b.2) && (!a.1 && b.1))

/-- `operator<` of a `value_type`; the two values have the same type. -/
def Value.lt : Value → Value → Bool
  | .num a, .num b => decide (a < b)
  | .arr a, .arr b => lexLt (fun x y => decide (x < y)) a b
  | .alt a, .alt b => lexLt altLt a b
  | _, _ => false

/-- `details_::cmp_datas` (datas_loader.hpp L82-93). -/
def cmpDatas (cmp cmp2 : Value → Value → Bool) (i j : Nat) : List Table → Res Bool
  | [] => .ok false
  | [t] => do
    let a ← rd t.vals i
    let b ← rd t.vals j
    return cmp a b
  | t :: ts => do
    let a ← rd t.vals i
    let b ← rd t.vals j
    if cmp a b || cmp2 a b then cmpDatas cmp cmp2 i j ts else return false

/-- `Datas::lt` (datas_loader.hpp L223-225). -/
def Datas.lt (d : Datas) (i j : Nat) : Res Bool :=
  cmpDatas Value.lt (fun a b => decide (a = b)) i j d.tables

/-- `Datas::eq` (datas_loader.hpp L227-229). -/
def Datas.eq (d : Datas) (i j : Nat) : Res Bool :=
  cmpDatas (fun a b => decide (a = b)) (fun _ _ => false) i j d.tables

end Ppocr

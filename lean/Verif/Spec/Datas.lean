import Verif.Model.Datas

/-! # Specification of the tables of features -/

namespace Ppocr.Spec

/-- The feature of an image and its rotation without any cache: a strategy registered for `img90` sees the
two exchanged. -/
def feature (s : Feat × Policy) (img img90 : Image) : Res Value :=
  match s.2 with
  | .img => s.1.load img img90
  | .img90 => s.1.load img90 img

/-- The values of a sequence of operations without any cache. -/
def values : List CtxOp → Image → Image → Res (List Value)
  | [], _, _ => .ok []
  | .start i r :: ops, _, _ => values ops i r
  | .load s :: ops, i, r => do
    let v ← feature s i r
    let vs ← values ops i r
    return v :: vs

/-- A non-empty image small enough for every feature. -/
structure Sized (i : Image) : Prop where
  wf : i.WF
  w : 0 < i.bounds.w
  h : 0 < i.bounds.h
  area : 100 * (i.bounds.w * i.bounds.h) + 100 < 2147483648
  grav : 25 * (i.bounds.w * i.bounds.h * (i.bounds.w + i.bounds.h + 2)) < 4294967296

/-- The 25 columns of a `PpOcrDatas`. -/
def registered : List (Feat × Policy) :=
  [(.dvgravity2, .img90), (.dvdirection2, .img90), (.dzdensity, .img), (.dzdensity, .img90),
   (.dvdirection2, .img), (.dvgravity2, .img), (.hdirection, .img), (.hdirection, .img90),
   (.hdirection2, .img), (.hdirection2, .img90), (.hgravity, .img), (.hgravity, .img90),
   (.hgravity2, .img), (.hgravity2, .img90), (.proportionality, .img), (.dvdirection, .img),
   (.dvdirection, .img90), (.dvgravity, .img), (.dvgravity, .img90), (.density, .img),
   (.hbar, .img), (.hbar, .img90), (.alternations, .img), (.zone, .img), (.propZone, .img)]

/-- Rows of a table of features. -/
def row (ts : List Table) (k : Nat) : List (Option Value) := ts.map fun t => t.vals[k]?

/-- Both rows exist in every table. -/
def HasRows (ts : List Table) (i j : Nat) : Prop := ∀ t ∈ ts, i < t.vals.length ∧ j < t.vals.length

/-- The value of table `t` at row `k`. -/
def cell (t : Table) (k : Nat) : Value := t.vals.getD k (.num 0)

/-- Lexicographic order of two rows: smaller at the first table where they differ. -/
def LexLt (ts : List Table) (i j : Nat) : Prop :=
  ∃ (k : Nat) (t : Table), ts[k]? = some t ∧ (cell t i).lt (cell t j) = true ∧ ∀ (l : Nat) (u : Table), l < k → ts[l]? = some u → cell u i = cell u j

end Ppocr.Spec

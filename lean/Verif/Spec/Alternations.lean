import Verif.Spec.Image
import Verif.Model.Alternations

namespace Ppocr.Spec

/-- Number of places where two neighbours differ. -/
def changes : List Bool → Nat
  | a :: b :: l => (if a = b then 0 else 1) + changes (b :: l)
  | _ => 0

/-- First colour and number of runs of a strip. -/
def runs (l : List Bool) : Bool × Nat := (l.headD false, 1 + changes l)

/-- Row `y`, cell by cell. -/
def strip (i : Image) (y : Nat) : List Bool := (List.range i.bounds.w).map fun x => letter i x y

/-- For each column, whether rows `y .. y+n-1` hold a letter pixel in it. -/
def shadow (i : Image) (y n : Nat) : List Bool :=
  (List.range i.bounds.w).map fun x => (List.range' y n).any fun r => letter i x r

/-- The seven documented strips (alternations.hpp L34-85). -/
def documented (i r : Image) : List (Bool × Nat) :=
  [ if i.bounds.h < 2 then (false, 0) else runs (strip i ((i.bounds.h - 2) / 3)),
    runs (strip i ((2 * i.bounds.h - 1) / 3)),
    runs (shadow i 0 (i.bounds.h / 3)),
    runs (shadow i (i.bounds.h - i.bounds.h / 3) (i.bounds.h / 3)),
    runs (strip r ((r.bounds.h - 1) / 2)),
    runs (shadow r (r.bounds.h - r.bounds.h / 3) (r.bounds.h / 3)),
    runs (shadow r 0 (r.bounds.h / 3)) ]

end Ppocr.Spec

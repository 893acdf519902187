import Verif.Spec.Image
import Verif.Spec.Datas

/-! # Specification of enlarged pictures -/

namespace Ppocr.Spec

/-- `j` is `i` with every cell blown up to a square of `k` by `k` cells. -/
structure Enlarged (k : Nat) (i j : Image) : Prop where
  pos : 0 < k
  wide : j.bounds.w = k * i.bounds.w
  high : j.bounds.h = k * i.bounds.h
  cells : ∀ x y, letter j x y = letter i (x / k) (y / k)

/-- A picture blown up `k` times. -/
def enlarge (k : Nat) (i : Image) : Image :=
  ⟨⟨k * i.bounds.w, k * i.bounds.h⟩, (List.range (k * i.bounds.h)).flatMap fun y =>
    (List.range (k * i.bounds.w)).map fun x => if letter i (x / k) (y / k) then 120 else 45⟩

/-- The columns that measure something with no unit of length, whatever the size of the picture. -/
def scaleFree : List (Feat × Policy) :=
  [(.proportionality, .img), (.density, .img), (.hbar, .img), (.hbar, .img90), (.zone, .img),
   (.propZone, .img)]

end Ppocr.Spec

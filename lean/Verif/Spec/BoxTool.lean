import Verif.Spec.Box
import Verif.Spec.Command

/-! # Specification of the tool `box` -/

namespace Ppocr.Spec

/-- Letters with their places: an empty line, `box(x y width height)`, the picture in its frame. -/
def listing (l : List (Box × Image)) : List Nat :=
  l.flatMap fun p =>
    [10, 98, 111, 120, 40] ++ showNat p.1.x ++ [32] ++ showNat p.1.y ++ [32] ++ showNat p.1.w ++ [32] ++ showNat p.1.h ++
      [41, 10] ++ framed p.2

/-- The letters of an image, with their places and pictures. -/
structure Letters (i : Image) (l : List (Box × Image)) : Prop where
  size : i.bounds.w * i.bounds.h + i.bounds.w ≤ 2 ^ 32
  boxes : segment i = .ok (l.map Prod.fst)
  pics : Pictures i (l.map Prod.fst) (l.map Prod.snd)

/-- The cell is drawn: it is in a picture laid at its place. -/
def Drawn (l : List (Box × Image)) (x y : Nat) : Prop :=
  ∃ p ∈ l, p.1.x ≤ x ∧ p.1.y ≤ y ∧ letter p.2 (x - p.1.x) (y - p.1.y) = true

end Ppocr.Spec

import Verif.Spec.Features
import Verif.Model.Zone

/-!
# Specification of the zones

Positions are counted in reading order: position `p` is column `p % w` of row `p / w`.
-/

namespace Ppocr.Spec

/-- Position `p` is a background pixel. -/
def Bg (i : Image) (p : Nat) : Prop :=
  p < i.bounds.w * i.bounds.h ∧ letter i (p % i.bounds.w) (p / i.bounds.w) = false

/-- Two positions side by side or one above the other. -/
def Adj (w p q : Nat) : Prop :=
  (p / w = q / w ∧ (p % w = q % w + 1 ∨ q % w = p % w + 1)) ∨
  (p % w = q % w ∧ (p / w = q / w + 1 ∨ q / w = p / w + 1))

/-- Connected by a 4-connected path of background pixels. -/
inductive Conn (i : Image) : Nat → Nat → Prop
  | refl (p : Nat) : Bg i p → Conn i p p
  | step (p q r : Nat) : Conn i p q → Adj i.bounds.w q r → Bg i r → Conn i p r

/-- `p` is the first pixel, in reading order, of a zone. -/
def IsFirst (i : Image) (p : Nat) : Prop := Bg i p ∧ ∀ q, Conn i p q → p ≤ q

/-- The first pixels of all zones in reading order. -/
structure ZoneList (i : Image) (F : List Nat) : Prop where
  sorted : F.Pairwise (· < ·)
  mem : ∀ p, p ∈ F ↔ IsFirst i p

open Classical in
/-- Number of the positions `pos 0 .. pos (n-1)` that belong to the zone of `f`. -/
noncomputable def touch (i : Image) (pos : Nat → Nat) (n f : Nat) : Nat :=
  (List.range n).countP fun k => decide (Conn i f (pos k))

/-- The pixels of the four borders. -/
def topPos (_ : Image) (k : Nat) : Nat := k
def bottomPos (i : Image) (k : Nat) : Nat := (i.bounds.h - 1) * i.bounds.w + k
def leftPos (i : Image) (k : Nat) : Nat := k * i.bounds.w
def rightPos (i : Image) (k : Nat) : Nat := k * i.bounds.w + (i.bounds.w - 1)

/-- Pixels of the zone of `f` on each border. -/
noncomputable def topOf (i : Image) (f : Nat) : Nat := touch i (topPos i) i.bounds.w f
noncomputable def bottomOf (i : Image) (f : Nat) : Nat := touch i (bottomPos i) i.bounds.w f
noncomputable def leftOf (i : Image) (f : Nat) : Nat := touch i (leftPos i) i.bounds.h f
noncomputable def rightOf (i : Image) (f : Nat) : Nat := touch i (rightPos i) i.bounds.h f

/-- The zone of `f` touches the border of the image. -/
def OnBorder (i : Image) (f : Nat) : Prop :=
  topOf i f ≠ 0 ∨ rightOf i f ≠ 0 ∨ bottomOf i f ≠ 0 ∨ leftOf i f ≠ 0

/-- Length of the zone of `f` along the first border (top, right, bottom, left) it touches. -/
noncomputable def extent (i : Image) (f : Nat) : Nat :=
  if topOf i f ≠ 0 then topOf i f else if rightOf i f ≠ 0 then rightOf i f
  else if bottomOf i f ≠ 0 then bottomOf i f else leftOf i f

/-- A zone on the border with less than a hundredth of the lengths of all zones along it. -/
def Thin (i : Image) (F : List Nat) (f : Nat) : Prop := OnBorder i f ∧ 100 * extent i f < (F.map (extent i)).sum

open Classical in
/-- Two pictures with equally many zones on the border, a thin one in each. -/
def Clash (i j : Image) : Prop :=
  ∃ F G, ZoneList i F ∧ ZoneList j G ∧
    F.countP (fun f => decide (OnBorder i f)) = G.countP (fun f => decide (OnBorder j f)) ∧
    (∃ f ∈ F, Thin i F f) ∧ ∃ g ∈ G, Thin j G g

end Ppocr.Spec

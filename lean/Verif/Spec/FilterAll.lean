import Verif.Spec.Filter

/-! # Specification of the line filter when the first box is the lowest one -/

namespace Ppocr.Spec

/-- The buffer of `filter_by_lines` is as long as the tops or the bottoms of the boxes behind the first one reach below the
highest one of all, or its length wraps when there is no other box. The first box has a cell in it for its position `f`: a
single box unless it is the second row alone; otherwise when it is not farther below the highest box than that. -/
def Held (f : Box → Nat) (b : Box) (bs : List Box) : Prop :=
  (bs = [] ∧ ¬ (b.y = 1 ∧ b.h = 1)) ∨
  ∀ d ∈ b :: bs, ∃ c ∈ bs, ∃ e ∈ b :: bs, f b + e.y ≤ c.y + f d ∨ f b + (e.y + e.h) ≤ (c.y + c.h) + f d

/-- The first box has a cell for its bottom. -/
def LowHeld (b : Box) (bs : List Box) : Prop := Held (fun c => c.y + c.h) b bs

/-- The first box has a cell for its top. -/
def TopHeld (b : Box) (bs : List Box) : Prop := Held Box.y b bs

/-- A position that the maximum of the histogram sees: not below all the boxes behind the first one. -/
def sees (f : Box → Nat) (bs : List Box) (z : Nat) : Bool := bs.isEmpty || bs.any fun d => decide (z ≤ f d)

/-- The bottoms that count for the baseline. -/
def seenBottoms (b : Box) (bs : List Box) : List Nat :=
  ((b :: bs).map Box.bottom).filter (sees Box.bottom bs)

/-- The least position. -/
def least (f : Box → Nat) (b : Box) (bs : List Box) : Nat := (bs.map f).foldl min (f b)

/-- A bottom that the maximum did not see stays in the buffer, and counts as a top if it can be seen as one. -/
def leftTops (b : Box) (bs : List Box) : List Nat :=
  if sees Box.bottom bs b.bottom then []
  else [least Box.y b bs + (b.bottom - least Box.bottom b bs)].filter (sees Box.y bs)

/-- The tops that count for the meanline. -/
noncomputable def seenTops (infos : List WordInfo) (b : Box) (bs : List Box) (mids : List (List View × Nat)) : List Nat :=
  leftTops b bs ++ (meanTops infos (b :: bs) mids).filter (sees Box.y bs)

/-- The meanline: the most frequent of these tops, the least top when there is none. -/
def IsMean (infos : List WordInfo) (b : Box) (bs : List Box) (mids : List (List View × Nat)) (y : Nat) : Prop :=
  (seenTops infos b bs mids ≠ [] → IsMode (seenTops infos b bs mids) y) ∧
  (seenTops infos b bs mids = [] → y = least Box.y b bs)

end Ppocr.Spec

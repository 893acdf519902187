import Verif.Spec.Ocr2
import Verif.Model.Box

/-! # Specification of the reading of a line -/

namespace Ppocr.Spec

/-- The candidates of a picture: what `compute_image` finds for it and its rotation with empty buffers. -/
def candidates {P : Type} [Dbl P] (s : Setup P) (a : Image) : Res (List View) := do
  let r ← a.rotate90
  let o ← computeImage s [] a r
  return o.views

/-- The column behind the letter before letter `k`, the first column if there is none. -/
def endBefore (bs : List Box) : Nat → Nat
  | 0 => 0
  | k + 1 => ((bs[k]?).map fun b => b.x + b.w).getD 0

/-- Letter `k` follows a space: more than four blank columns. -/
def Gap (bs : List Box) (k : Nat) : Prop := ∃ b, bs[k]? = some b ∧ endBefore bs k + 4 < b.x

instance (bs : List Box) (k : Nat) : Decidable (Gap bs k) :=
  match h : bs[k]? with
  | none => isFalse fun ⟨_, e, _⟩ => by rw [h] at e; exact absurd e (by simp)
  | some b =>
    if hb : endBefore bs k + 4 < b.x then isTrue ⟨b, h, hb⟩
    else isFalse fun ⟨_, e, hc⟩ => by rw [h] at e; cases e; exact hb hc

/-- The letters that follow a space. -/
def gaps (bs : List Box) : List Nat := (List.range bs.length).filter fun k => decide (Gap bs k)

/-- The picture in each box. -/
def Pictures (i : Image) : List Box → List Image → Prop
  | [], [] => True
  | b :: bs, a :: as => i.section b.x b.y b.bounds = .ok a ∧ Pictures i bs as
  | _, _ => False

end Ppocr.Spec

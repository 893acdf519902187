import Verif.Spec.Tools
import Verif.Spec.Line6

/-! # Specification of reading with `extract_text6` what was learnt -/

namespace Ppocr.Spec

/-- A letter that was shown matches this one, and those that do were all shown with the word of characters `cs`. -/
def Stands6 (ls : List Lesson) (a : Image) (cs : List Nat) : Prop :=
  (∀ c ∈ cs, Scalar c) ∧ (∃ p ∈ taught ls, Exact6 p.1 a) ∧ ∀ p ∈ taught ls, Exact6 p.1 a → p.2 = encAll cs

/-- The texts of the letters along a line, a space where more than four columns are blank. `x` is where the letter before ends. -/
def gapped : Nat → List Box → List (List Nat) → List (List Nat)
  | x, b :: bs, t :: ts => (if x + 4 < b.x then [[32]] else []) ++ t :: gapped (b.x + b.w) bs ts
  | _, _, _ => []

/-- Each text and a space behind it. -/
def spacedOut (ts : List (List Nat)) : List Nat := ts.flatMap fun t => encAll t ++ [32]

/-- A text that belongs to no word. -/
def stopText (t : List Nat) : Bool := t.length = 1 && t.all (· ∈ stops)

end Ppocr.Spec

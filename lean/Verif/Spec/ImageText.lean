import Verif.Model.ImageText
import Verif.Spec.Command
import Verif.Spec.WordLines

/-! # Specification of images and coordinates as text -/

namespace Ppocr.Spec

/-- A C string: no byte of it is the terminator. -/
def CString (s : List Pixel) : Prop := ∀ c ∈ s, c ≠ 0

/-- The drawing `s`, row by row, fills the bounds and its last character is a pixel. -/
structure Drawing (b : Bounds) (s : List Pixel) : Prop where
  size : s.length = b.w * b.h
  last : s.getLast? = some chDash ∨ s.getLast? = some chX

/-- The text begins with two numbers; `r` is the rest. -/
def TwoNums (t : List Nat) (x y : Nat) (r : List Nat) : Prop := ∃ m, Num t x m ∧ Num m y r

/-- What a stream reader does to a pair of numbers: a pair that the text begins with is taken, without one the
variable keeps its value and the stream is failed. -/
structure ReadsPair {α : Type} (mk : Nat → Nat → α) (read : IS → α → α × IS) : Prop where
  taken : ∀ t x y r old, TwoNums t x y r →
    (read (IS.of t) old).1 = mk x y ∧ (read (IS.of t) old).2.fail = false ∧ (read (IS.of t) old).2.rest = r
  kept : ∀ t old, (¬ ∃ x y r, TwoNums t x y r) →
    (read (IS.of t) old).1 = old ∧ (read (IS.of t) old).2.fail = true
  dead : ∀ s old, s.good = false → (read s old).1 = old ∧ (read s old).2.fail = true

end Ppocr.Spec

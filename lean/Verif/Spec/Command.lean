import Verif.Model.Command
import Verif.Spec.Image
import Verif.Spec.Tools

/-! # Specification of the command line tools for images -/

namespace Ppocr.Spec

/-- A row of a picture: `x` for the letter, `-` for the rest. -/
def textRow (i : Image) (y : Nat) : List Nat :=
  (List.range i.bounds.w).map fun x => if letter i x y = true then 120 else 45

/-- A line of colons above and below a picture of width `w`. -/
def rule (w : Nat) : List Nat := List.replicate (w + 2) 58 ++ [10]

/-- A picture in a frame of colons. -/
def framed (i : Image) : List Nat :=
  rule i.bounds.w ++ ((List.range i.bounds.h).flatMap fun y => 58 :: (textRow i y ++ [58, 10])) ++ rule i.bounds.w

/-- Pictures in frames, an empty line behind each. -/
def gallery (as : List Image) : List Nat := as.flatMap fun a => framed a ++ [10]

/-- Pictures of letters as they are cut out of an image. -/
structure Cut (a : Image) : Prop where
  w : 0 < a.bounds.w
  len : a.data.length = a.bounds.w * a.bounds.h
  pixels : ∀ p ∈ a.data, p = chDash ∨ p = chX

/-- A line to show: its file, the image, the letters on it with their pictures. -/
structure Shown (lum : Nat) (e : FileEnv) (as : List Image) : Prop where
  ex : ∃ i bs, loadImage e lum = .ok i ∧ i.bounds.w * i.bounds.h + i.bounds.w ≤ 2 ^ 32 ∧ segment i = .ok bs ∧ Pictures i bs as

/-- A decimal number without sign. -/
def Numeral (v : List Nat) (n : Nat) : Prop := v ≠ [] ∧ (∀ c ∈ v, Digit c) ∧ numeral v 0 = n

/-- What `strtoul` takes for a number: blanks, a sign, digits, less than 2^64. -/
def Amount (v : List Nat) (k : Int) : Prop :=
  ∃ p sgn d n, v = p ++ (sgn ++ d) ∧ (∀ c ∈ p, Blank c) ∧ Numeral d n ∧ n < 2 ^ 64 ∧
    (sgn = [] ∧ k = n ∨ sgn = [43] ∧ k = n ∨ sgn = [45] ∧ k = -(n : Int))

end Ppocr.Spec

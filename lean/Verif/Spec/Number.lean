import Verif.Model.Stream

/-! # Specification of how a `double` is printed: six digits, the nearest ones -/

namespace Ppocr.Spec

/-- How far apart two numbers are. -/
def apart (a b : Nat) : Nat := (a - b) + (b - a)

/-- `m · 10^e` is the number of six digits that is nearest to `n`; between two that are as near, the one whose last
digit is even. -/
structure NearestSix (n m e : Nat) : Prop where
  six : 10 ^ 5 ≤ m ∧ m < 10 ^ 6
  near : ∀ m' e', m' < 10 ^ 6 → apart n (m * 10 ^ e) ≤ apart n (m' * 10 ^ e')
  even : ∀ m' e', m' < 10 ^ 6 → m' * 10 ^ e' ≠ m * 10 ^ e → apart n (m * 10 ^ e) = apart n (m' * 10 ^ e') → m % 2 = 0

/-- The text of `m · 10^e` for `m` of six digits: the first digit, a point and the other digits without the zeros at
the end (no point if there are only zeros), `e+` and the exponent with at least two digits. -/
def WrittenSix (m e : Nat) (text : List Nat) : Prop :=
  ∃ first digits zeros, showNat m = first :: digits ++ List.replicate zeros 48 ∧ digits.getLast? ≠ some 48 ∧
    text = first :: (if digits = [] then [] else 46 :: digits) ++ [101, 43] ++
      (if e + 5 < 10 then [48, 48 + (e + 5)] else showNat (e + 5))

end Ppocr.Spec

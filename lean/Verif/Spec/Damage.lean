import Verif.Spec.WordLines

/-! # Specification of damaged files -/

namespace Ppocr.Spec

/-- A text that does not go on with a number: behind blanks there is something else. -/
def Foreign (r : List Nat) : Prop :=
  ∃ p c t, r = p ++ c :: t ∧ (∀ b ∈ p, Blank b) ∧ ¬ Blank c ∧ ¬ Digit c ∧ c ≠ 43 ∧ c ≠ 45

/-- A text that holds entries; `r` is behind them. -/
inductive EntryText : List Nat → List Entry → List Nat → Prop
  | stop (t : List Nat) : EntryText t [] t
  | more (t r q : List Nat) (e : Entry) (es : List Entry) : HasEntry t e r → EntryText r es q → EntryText t (e :: es) q

end Ppocr.Spec

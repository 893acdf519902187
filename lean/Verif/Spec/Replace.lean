import Verif.Basic

/-!
# Replacing in a text

The textbook meaning of replacing a pattern: from left to right, each occurrence not overlapping an earlier one. And the
repeated rewriting that the program performs.
-/

namespace Ppocr.Spec

/-- `a` is what stands before the first occurrence of `p` in `t`, and `b` what stands behind it. -/
def FirstIn (p t a b : List Nat) : Prop :=
  t = a ++ p ++ b ∧ ∀ a' b', t = a' ++ p ++ b' → a.length ≤ a'.length

/-- `o` is `t` with every occurrence of `p`, from left to right, replaced by `r`. -/
inductive Replaced (p r : List Nat) : List Nat → List Nat → Prop
  | none (t : List Nat) : ¬ p <:+: t → Replaced p r t t
  | next (t a b o : List Nat) : FirstIn p t a b → Replaced p r b o → Replaced p r t (a ++ r ++ o)

/-- The same, but the replacement is searched again together with what follows it. -/
inductive Rewritten (p r : List Nat) : List Nat → List Nat → Prop
  | none (t : List Nat) : ¬ p <:+: t → Rewritten p r t t
  | next (t a b o : List Nat) : FirstIn p t a b → Rewritten p r (r ++ b) o → Rewritten p r t (a ++ o)

/-- No end of `p` can be the beginning of `r` and what follows it: no replacement makes a new occurrence with what is
before it. -/
def NoLeft (p r : List Nat) : Prop :=
  ∀ x y, p = x ++ y → x ≠ [] → y ≠ [] → ¬ y <+: r ∧ ¬ r <+: y

/-- No beginning of `p` is an end of `r`, and `p` is not in `r`: no replacement makes a new occurrence with what is behind
it. -/
def NoRight (p r : List Nat) : Prop :=
  ¬ p <:+: r ∧ ∀ x y, p = x ++ y → x ≠ [] → y ≠ [] → ¬ x <:+ r

/-- A text and the replacements in it, given what a blank is and the last replacement before the text. -/
inductive RepText (isBlank : Nat → Bool) : List Nat → List (List Nat × List Nat) → List Nat → Prop
  /-- Nothing more. -/
  | blank (prev ws : List Nat) : (∀ c ∈ ws, isBlank c = true) → RepText isBlank prev [] ws
  /-- A pattern and a newline right behind it: it is replaced by nothing. -/
  | bare (prev ws p t : List Nat) (reps : List (List Nat × List Nat)) : (∀ c ∈ ws, isBlank c = true) → p ≠ [] →
      (∀ c ∈ p, isBlank c = false) → RepText isBlank [] reps (10 :: t) →
      RepText isBlank prev ((p, []) :: reps) (ws ++ p ++ 10 :: t)
  /-- A pattern, blanks of which the first is no newline, and the replacement. -/
  | pair (prev ws p ws' r t : List Nat) (reps : List (List Nat × List Nat)) : (∀ c ∈ ws, isBlank c = true) → p ≠ [] →
      (∀ c ∈ p, isBlank c = false) → ws' ≠ [] → ws'.head? ≠ some 10 → (∀ c ∈ ws', isBlank c = true) → r ≠ [] →
      (∀ c ∈ r, isBlank c = false) → (∀ c, t.head? = some c → isBlank c = true) → RepText isBlank r reps t →
      RepText isBlank prev ((p, r) :: reps) (ws ++ p ++ (ws' ++ r ++ t))
  /-- A pattern at the end with blanks of which the first is no newline: it is lost. -/
  | lost (prev ws p ws' : List Nat) : (∀ c ∈ ws, isBlank c = true) → p ≠ [] →
      (∀ c ∈ p, isBlank c = false) → ws' ≠ [] → ws'.head? ≠ some 10 → (∀ c ∈ ws', isBlank c = true) →
      RepText isBlank prev [] (ws ++ p ++ ws')
  /-- A pattern at the very end: it gets the replacement of the entry before it. -/
  | last (prev ws p : List Nat) : (∀ c ∈ ws, isBlank c = true) → p ≠ [] → (∀ c ∈ p, isBlank c = false) →
      RepText isBlank prev [(p, prev)] (ws ++ p)

end Ppocr.Spec

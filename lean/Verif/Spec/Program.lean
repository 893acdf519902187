import Verif.Spec.ExtractText
import Verif.Spec.Text
import Verif.Spec.Setup
import Verif.Spec.FilterAll

/-! # Specification of the whole reading of a line -/

namespace Ppocr.Spec

/-- The texts of the letters from number `k` on, a space before those where `p` says so. -/
def spacedFrom (p : Nat → Bool) : Nat → List (List Nat) → List Nat
  | _, [] => []
  | k, w :: ws => (if p k then [32] else []) ++ w ++ spacedFrom p (k + 1) ws

/-- The texts of the letters in reading order, a space before each letter that follows a gap, but the first. -/
def spaced (bs : List Box) (ws : List (List Nat)) : List Nat :=
  spacedFrom (fun k => decide (0 < k) && decide (Gap bs k)) 0 ws

/-- No gap before letter `k`, and only punctuation. -/
def OnlyMarks (bs : List Box) (ws : List (List Nat)) (k : Nat) : Prop :=
  ∀ j < k, ¬ Gap bs j ∧ isSep [ws.getD j []] = true

instance (bs : List Box) (ws : List (List Nat)) (k : Nat) : Decidable (OnlyMarks bs ws k) :=
  inferInstanceAs (Decidable (∀ j < k, _))

/-- The same without the space behind a first word that is only punctuation. -/
def spacedKept (bs : List Box) (ws : List (List Nat)) : List Nat :=
  spacedFrom (fun k => decide (0 < k) && decide (Gap bs k) && !decide (OnlyMarks bs ws k)) 0 ws

/-- The letter is alike to a learnt glyph, and every glyph alike to it stands for the word `id` only. -/
def Means (imgs : List Image) (glyphs : List (List View)) (a : Image) (id : Nat) : Prop :=
  (∃ g, AlikeGlyph imgs a g) ∧ ∀ g l, AlikeGlyph imgs a g → glyphs[g]? = some l → ∀ v ∈ l, v.word = id

/-- The dictionary does not cut a text (C43): letters in a row that end in a text of several characters, of which only the
first is looked at, do not spell a word of it. -/
def Uncut (ws ts : List (List Nat)) : Prop := ∀ r c, r ++ [c] <:+: ts → c.length = 1 ∨ r.flatten ++ c.take 1 ∉ ws

open Classical in
/-- The first letter, recognised as `v`, counts for the meanline: one counted word is left by the baseline, and it is declared on
both lines. -/
def CountsMean (infos : List WordInfo) (b : Box) (bs : List Box) (v : List View) : Prop :=
  ∃ baseline mid n, IsMode (seenBottoms b bs) baseline ∧
    LineFiltered (fun x => decide (Wrong infos WordLines.base b.bottom baseline x)) v mid n ∧ meanTop infos b mid n ≠ none

/-- The line filter does not leave its buffer on the first letter of the line (C36): there is a cell for its bottom, and one for
its top if it counts for the meanline. -/
def FirstHeld {P : Type} [Dbl P] (s : Setup P) (infos : List WordInfo) (i : Image) : Prop :=
  ∀ b bs a as, segment i = .ok (b :: bs) → Pictures i (b :: bs) (a :: as) →
    LowHeld b bs ∧ (TopHeld b bs ∨ ∀ v, candidates s a = .ok v → ¬ CountsMean infos b bs v)

end Ppocr.Spec

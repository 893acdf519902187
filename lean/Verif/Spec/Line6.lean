import Verif.Spec.Text
import Verif.Spec.Text6
import Verif.Spec.ExtractText

/-! # Specification of the results of `extract_text6` -/

namespace Ppocr.Spec

/-- What stands between words. -/
def stops : List Nat := " ',.!?\"".toList.map Char.toNat

/-- A letter that belongs to no word: not recognised, or its first candidate is one of these. -/
def isStop : List (List Nat) → Bool
  | [c] :: _ => c ∈ stops
  | l => l.isEmpty

/-- The text of letters: the longest sequences of letters of words as in the dictionary, else with their first candidates; `?`
for a letter that is not recognised, and the first candidate of the others. -/
def saying (ws : List (List Nat)) : List (List (List Nat)) → List Nat
  | [] => []
  | l :: ls =>
    if h : isStop l then sepText l ++ saying ws ls
    else runText ws ((l :: ls).takeWhile (!isStop ·)) ++ saying ws ((l :: ls).dropWhile (!isStop ·))
  termination_by ls => ls.length
  decreasing_by
  · simp
  · rw [List.dropWhile_cons_of_pos (by simpa using h)]
    have := (List.dropWhile_sublist (l := ls) (!isStop ·)).length_le
    simp only [List.length_cons]
    omega

/-- The candidates of each letter; those of a picture that has been seen before are the ones remembered. `seen` are the pictures
before. -/
def letterWords (R : Image → Letter6) : List Image → List Image → List Words
  | _, [] => []
  | seen, a :: as => (if a ∈ seen then (R a).cached else (R a).amb) :: letterWords R (a :: seen) as

/-- The candidates along a line: a space where more than four columns are blank. `x` is where the letter before ends. -/
def withGaps : Nat → List Box → List Words → List Words
  | x, b :: bs, c :: cs => (if x + 4 < b.x then [[[32]]] else []) ++ c :: withGaps (b.x + b.w) bs cs
  | _, _, _ => []

/-- One word per letter, a space behind each. -/
def eachSpaced (f : Image → List Nat) (as : List Image) : List Nat := as.flatMap fun a => f a ++ [32]

end Ppocr.Spec

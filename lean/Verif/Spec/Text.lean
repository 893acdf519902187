import Verif.Spec.Disambiguouser

/-!
# The text of a line

A letter is the list of its candidates, strings of characters, the preferred first.
-/

namespace Ppocr.Spec

/-- The punctuation marks that separate words. -/
def marks : List Nat := "!#$%&'()*+,-.:;<=>?[]{}".toList.map Char.toNat

/-- A letter that belongs to no word: not recognised, or taken for a punctuation mark. -/
def isSep : List (List Nat) → Bool
  | [] => true
  | w :: _ => match w with
    | [c] => c ∈ marks
    | _ => false

/-- The first candidate. -/
def firstOf : List (List Nat) → List Nat
  | [] => []
  | w :: _ => w

/-- The text of such a letter. -/
def sepText (l : List (List Nat)) : List Nat := if l = [] then [63] else firstOf l

/-- The text of letters that belong to a word: as in the dictionary, else the first candidates. -/
def runText (ws : List (List Nat)) (run : List (List (List Nat))) : List Nat :=
  match preferred spellCut ws run with
  | some ch => spellCut ch
  | none => run.flatMap firstOf

/-- The text of letters between two spaces: the longest sequences of letters of words, and the other letters. -/
def segText (ws : List (List Nat)) : List (List (List Nat)) → List Nat
  | [] => []
  | l :: ls =>
    if h : isSep l then sepText l ++ segText ws ls
    else runText ws ((l :: ls).takeWhile (!isSep ·)) ++ segText ws ((l :: ls).dropWhile (!isSep ·))
  termination_by ls => ls.length
  decreasing_by
  · simp
  · rw [List.dropWhile_cons_of_pos (by simpa using h)]
    have := (List.dropWhile_sublist (l := ls) (!isSep ·)).length_le
    simp only [List.length_cons]
    omega

/-- The letters between spaces: `ends` are the numbers of letters before each space, and that of all letters. -/
def segments {α : Type} (ls : List α) : Nat → List Nat → List (List α)
  | _, [] => []
  | b, e :: es => (ls.take e).drop b :: segments ls e es

/-- The text of a line: that of the segments with a space between two. -/
def lineText (ws : List (List Nat)) (ls : List (List (List Nat))) (ends : List Nat) : List Nat :=
  [32].intercalate ((segments ls 0 ends).map (segText ws))

end Ppocr.Spec

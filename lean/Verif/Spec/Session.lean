import Verif.Model.Session
import Verif.Spec.Command

/-! # Specification of what `ocr2_extract_text` prints -/

namespace Ppocr.Spec

/-- The pictures where they appear for the first time. -/
def firstSeen (as : List Image) : List Image :=
  (List.range as.length).flatMap fun k =>
    match as[k]? with
    | some a => if a ∈ as.take k then [] else [a]
    | none => []

/-- A picture in its frame and, on one line, the words of its candidates, a space behind each. -/
def described {P : Type} [Dbl P] (s : Setup P) (W : Nat → List Nat) (a : Image) : List Nat :=
  framed a ++ (match candidates s a with | .ok vs => vs.flatMap fun v => W v.word ++ [32] | _ => []) ++ [10]

/-- The line about the dictionary. -/
def dictLine : Option Bool → List Nat
  | none => []
  | some b => lit (if b then " ## dict ? true\n" else " ## dict ? false\n")

/-- The first lines: whether there is a dictionary with words, if one was given, and how many glyphs. -/
def heading (dict : Option Bool) (n : Nat) : List Nat :=
  dictLine dict ++ lit " ## datas.size(): " ++ showNat n ++ lit "\n ## glyphs.size(): " ++ showNat n ++ lit "\n ## go\n"

/-- The last lines. -/
def report (a : Answer) (rate : List Nat) : List Nat :=
  lit " ## result: " ++ a.text ++ lit "\nunrecognized_count: " ++ showNat a.unrecognized ++ lit "\ncount: " ++
    showNat a.count ++ lit "\nunrecognized_rate: " ++ rate ++ lit "\n"

end Ppocr.Spec

import Verif.Spec.Text

/-! # Specification: what a dictionary changes in a text -/

namespace Ppocr.Spec

/-- What may be printed for the letters `run` of a word with the dictionary `ws`: the first candidates, or a word of the
dictionary that some candidates spell (of the last one only the first character counts, C43). -/
def Told (ws : List (List Nat)) (run : List (List (List Nat))) (p : List Nat) : Prop :=
  p = run.flatMap firstOf ∨ (p ∈ ws ∧ ∃ ch ∈ choices run, spellCut ch = p)

/-- The letters `ls` are printed as `t` with the dictionary `ws` and as `t'` with `ws'`: the line falls into pieces that are
printed alike, and into words, that is letters for which `sep` is false. -/
def Retold (sep : List (List Nat) → Bool) (ws ws' : List (List Nat)) (ls : List (List (List Nat))) (t t' : List Nat) : Prop :=
  ∃ ps : List (List (List (List Nat)) × List Nat × List Nat), ps.flatMap (fun p => p.1) = ls ∧ t = ps.flatMap (fun p => p.2.1) ∧
    t' = ps.flatMap (fun p => p.2.2) ∧
    ∀ p ∈ ps, p.2.1 = p.2.2 ∨ (∀ l ∈ p.1, sep l = false) ∧ Told ws p.1 p.2.1 ∧ Told ws' p.1 p.2.2

end Ppocr.Spec

import Verif.Spec.Text

/-! # Specification: what words added to a dictionary change in a text -/

namespace Ppocr.Spec

/-- The letters `run` of a word, printed as `t` with the dictionary `ws`, are printed as `t'` with the larger dictionary `ws'`: as before, or as
an added word that some candidates spell, and then no candidates that are preferred to these spell a word of the dictionary. -/
def Widens (ws ws' : List (List Nat)) (run : List (List (List Nat))) (t t' : List Nat) : Prop :=
  t = t' ∨ t' ∈ ws' ∧ t' ∉ ws ∧ ∃ before ch after, choices run = before ++ ch :: after ∧ spellCut ch = t' ∧ ∀ c ∈ before, spellCut c ∉ ws'

/-- The letters `ls` are printed as `t` with the dictionary `ws` and as `t'` with the larger `ws'`: the line falls into pieces that are printed
alike, and into words, that is letters for which `sep` is false. -/
def Grown (sep : List (List Nat) → Bool) (ws ws' : List (List Nat)) (ls : List (List (List Nat))) (t t' : List Nat) : Prop :=
  ∃ ps : List (List (List (List Nat)) × List Nat × List Nat), ps.flatMap (fun p => p.1) = ls ∧ t = ps.flatMap (fun p => p.2.1) ∧
    t' = ps.flatMap (fun p => p.2.2) ∧ ∀ p ∈ ps, p.2.1 = p.2.2 ∨ (∀ l ∈ p.1, sep l = false) ∧ Widens ws ws' p.1 p.2.1 p.2.2

/-- The texts `t` and `t'` that two dictionaries give, and `u`, that of both together: the line falls into pieces, each of which is in `u` as in
`t` or as in `t'`; those on which `t` and `t'` differ are words. -/
def BothTold (sep : List (List Nat) → Bool) (ls : List (List (List Nat))) (t t' u : List Nat) : Prop :=
  ∃ ps : List (List (List (List Nat)) × List Nat × List Nat × List Nat), ps.flatMap (fun p => p.1) = ls ∧ t = ps.flatMap (fun p => p.2.1) ∧
    t' = ps.flatMap (fun p => p.2.2.1) ∧ u = ps.flatMap (fun p => p.2.2.2) ∧
    ∀ p ∈ ps, (p.2.2.2 = p.2.1 ∨ p.2.2.2 = p.2.2.1) ∧ (p.2.1 = p.2.2.1 ∨ ∀ l ∈ p.1, sep l = false)

end Ppocr.Spec

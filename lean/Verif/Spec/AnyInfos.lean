import Verif.Spec.Glyphs
import Verif.Spec.WordLines

/-! # Specification of the word tables that can be used -/

namespace Ppocr.Spec

/-- The search for `s` among the sorted words `ws` comes to a word behind whose size there are less bytes than `s` has: all words before
it are less than `s`. -/
def Overruns (ws : List (List Nat)) (s : List Nat) : Prop :=
  ∃ pre w post, ws = pre ++ w :: post ∧ 4 * ((w :: post).map room).sum < 4 + s.length ∧ ∀ v ∈ pre, wordLt v s = true

end Ppocr.Spec

import Verif.Spec.Utf
import Verif.Model.Glyphs

/-! # Specification of the glyph files that can be used -/

namespace Ppocr.Spec

/-- The bytes are a text in UTF-8, without NUL. -/
def Utf8 (l : List Nat) : Prop := ∃ cs, (∀ c ∈ cs, Scalar c) ∧ encAll cs = l

/-- No word of a view has 4, 8, … bytes. -/
def OddSizes (g : RGlyphs) : Prop := ∀ vs ∈ g.views, ∀ v ∈ vs, ∀ n, wordSize g.buf v.word = .ok n → n % 4 ≠ 0

end Ppocr.Spec

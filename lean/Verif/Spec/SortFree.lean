import Verif.Spec.Ocr2

/-! # Specification for C72: letters on which the order of equal elements does not matter -/

namespace Ppocr.Spec
variable {P : Type} [Dbl P]

/-- What the simple strategies load. -/
def loaded (img img90 : Image) (t : Simple) : Nat := valueOr 0 (t.load img img90)

/-- Glyph `g` is within a tenth of the interval of the letter for every simple strategy. -/
def Close (s : Setup P) (img img90 : Image) (g : Nat) : Prop :=
  ∀ t ∈ s.first :: s.simple, Near t.tab (loaded img img90 t) (t.k / 10) g

/-- Probability of a glyph for the simple strategies. -/
def simpleProb (s : Setup P) (img img90 : Image) (g : Nat) : P := score (loaded img img90) s.first s.simple g

/-- The same multiplied by the similarities for the complex strategies. -/
def fullProb (s : Setup P) (img img90 : Image) (g : Nat) : P :=
  (complexScore s.complex img img90 (g, simpleProb s img img90 g)).2

/-- Glyph `g` is left by the complex and exclusive strategies. -/
def Kept (s : Setup P) (img img90 : Image) (g : Nat) : Prop :=
  complexKeep P s.complex img img90 g = true ∧ wordKeep s.byWords s.exclusive img img90 g = true

/-- Glyphs that the letter matches equally well have the same views: those of probability 1, and those left at the end that
have equal probabilities. -/
structure Settled (s : Setup P) (img img90 : Image) : Prop where
  perfect : ∀ g h, Close s img img90 g → Close s img img90 h → Dbl.le (Dbl.ofPct 100) (simpleProb s img img90 g) = true →
    Dbl.le (Dbl.ofPct 100) (simpleProb s img img90 h) = true → s.glyphs.getD g [] = s.glyphs.getD h []
  tied : ∀ g h, Close s img img90 g → Close s img img90 h → Kept s img img90 g → Kept s img img90 h →
    Dbl.le (fullProb s img img90 g) (fullProb s img img90 h) = true →
    Dbl.le (fullProb s img img90 h) (fullProb s img img90 g) = true → s.glyphs.getD g [] = s.glyphs.getD h []

end Ppocr.Spec

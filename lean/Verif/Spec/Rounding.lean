import Verif.Spec.SortFree

/-! # Specification for C96: letters on which the rounding of `double` does not matter -/

namespace Ppocr.Spec
variable {P : Type} [Dbl P]

/-- The similarities, in percent, of glyph `g` and of the letter for the simple strategies. -/
def simplePercents (s : Setup P) (img img90 : Image) (g : Nat) : List Nat :=
  (s.first :: s.simple).map fun t => sim t.k (t.tab.getD g 0) (loaded img img90 t)

/-- The same for the simple and for the complex strategies. -/
def percents (s : Setup P) (img img90 : Image) (g : Nat) : List Nat :=
  simplePercents s img img90 g ++ s.complex.map fun t => simOf t img img90 g

/-- Their product: the exact probability is this number over a power of 100 that is the same for all glyphs. -/
def chance (s : Setup P) (img img90 : Image) (g : Nat) : Nat := (percents s img img90 g).foldl (· * ·) 1

/-- Two numbers that differ by more than one part in 2^40. -/
def Apart (x y : Nat) : Prop := x * (2 ^ 40 + 1) < y * 2 ^ 40 ∨ y * (2 ^ 40 + 1) < x * 2 ^ 40

/-- Glyph `g` is close to the letter and every simple strategy finds them alike. -/
def Perfect (s : Setup P) (img img90 : Image) (g : Nat) : Prop :=
  Close s img img90 g ∧ ∀ c ∈ simplePercents s img img90 g, c = 100

/-- Glyph `g` is among the candidates left at the end. -/
def Left (s : Setup P) (img img90 : Image) (g : Nat) : Prop := Close s img img90 g ∧ Kept s img img90 g

/-- No near tie decides. Glyphs that match perfectly have the same views. If there is none: two glyphs left at the end have the same
percentages and the same views, or probabilities that are apart; and no probability is near to the double of another. -/
structure Clear (s : Setup P) (img img90 : Image) : Prop where
  perfect : ∀ g h, Perfect s img img90 g → Perfect s img img90 h → s.glyphs.getD g [] = s.glyphs.getD h []
  order : (∀ g, ¬ Perfect s img img90 g) → ∀ g h, Left s img img90 g → Left s img img90 h →
    percents s img img90 g = percents s img img90 h ∧ s.glyphs.getD g [] = s.glyphs.getD h [] ∨
      Apart (chance s img img90 g) (chance s img img90 h)
  half : (∀ g, ¬ Perfect s img img90 g) → ∀ g h, Left s img img90 g → Left s img img90 h →
    Apart (chance s img img90 g) (2 * chance s img img90 h)

end Ppocr.Spec

import Verif.Model.DatasIO

/-! # Specification of the features files that can be used -/

namespace Ppocr.Spec

/-- Each strategy has a value for each glyph. -/
def Whole (d : Datas) : Prop := ∀ t ∈ d.tables, t.vals.length = d.size

/-- `y` is one of the percentages of the zones on the border, of some glyph. -/
def BorderPart (d : Datas) (y : Nat) : Prop := ∃ t ∈ d.tables, t.strat = (.propZone, .img) ∧ ∃ l, Value.arr l ∈ t.vals ∧ y ∈ l

/-- The percentages are not so great that adding 100 leaves the 32 bits. -/
def NoWrap (d : Datas) : Prop := ∀ y, BorderPart d y → y + 100 < 4294967296

/-- The percentages of the letter and of the glyphs can be compared: one of the two is not 0. -/
def Divides (d : Datas) (a : Image) : Prop :=
  (∀ y, BorderPart d y → 0 < y) ∨ ∀ l, propZoneLoad a = .ok l → ∀ x ∈ l, 0 < x

end Ppocr.Spec

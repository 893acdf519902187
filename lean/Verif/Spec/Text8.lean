import Verif.Spec.Datas
import Verif.Model.Setup

/-! # Specification of merging glyphs by their features -/

namespace Ppocr.Spec

/-- The number of glyphs whose features are not those of glyph `i`. -/
def unlikeRows (d : Datas) (i : Nat) : Nat :=
  (List.range d.size).countP fun j => decide (row d.tables j ≠ row d.tables i)

/-- Glyph `i` may come first in the order of the column `s`: no glyph has a smaller value there. -/
def Least (d : Datas) (s : Feat × Policy) (i : Nat) : Prop :=
  i < d.size ∧ ∀ j < d.size, ((d.get s).getD i (.num 0)).toNum ≤ ((d.get s).getD j (.num 0)).toNum

end Ppocr.Spec

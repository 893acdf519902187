import Verif.Spec.AnyDatas
import Verif.Model.Text6

/-! # Specification of what `extract_text6` can read with an arbitrary features file -/

namespace Ppocr.Spec

/-- A letter is read as words of the glyphs, or as `_`. -/
structure Gives6 (ws : List Words) (o : Letter6) : Prop where
  words : ∀ w ∈ o.amb, ∃ v ∈ ws, w ∈ v
  read : o.amb ≠ [] → o.cached = o.amb ∧ o.amb.head? = some o.r2
  unread : o.amb = [] → o.cached = [[95]] ∧ o.r2 = [95]
  first : (∃ v ∈ ws, v.head? = some o.r1) ∨ o.r1 = [95]

/-- The values of the strategy by which the glyphs are put into 21 categories are in these. -/
def InCategories (d : Datas) : Prop := ∀ t ∈ d.tables, t.strat = (.dvdirection, .img90) → ∀ n, Value.num n ∈ t.vals → n < 210

end Ppocr.Spec

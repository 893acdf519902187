import Verif.Model.Std

/-! # A `std::sort` that goes by its comparisons -/

namespace Ppocr.Spec

/-- What the sort does depends on the results of the comparisons only: ranges of the same length whose elements compare alike are
put in order by the same moves. -/
def ByComparison (S : StdSort) : Prop :=
  ∀ {α β : Type} (f : α → β) (lt : α → α → Bool) (lt' : β → β → Bool) (l : List α), (∀ a b, lt' (f a) (f b) = lt a b) →
    S.sort lt' (l.map f) = (S.sort lt l).map f

end Ppocr.Spec

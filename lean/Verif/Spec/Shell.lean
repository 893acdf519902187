import Verif.Model.Command

/-! # Commands one after the other -/

namespace Ppocr.Spec
open Ppocr

/-- `a && b` of the shell: the second command is run if the first ends with 0. -/
def inTurn (a b : Ran) : Ran := if a.code = .ok 0 then ⟨a.out ++ b.out, b.code⟩ else a

end Ppocr.Spec

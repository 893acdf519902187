import Verif.Model.Tools

/-! # Files of a size that is counted with 32 bits (C121) -/

namespace Ppocr.Spec
open Ppocr

/-- The file is shorter than 4 GiB. -/
def Under4G (f : TextFile) : Prop := ∀ t, f = some t → t.length < W32

end Ppocr.Spec

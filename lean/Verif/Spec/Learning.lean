import Verif.Model.Learning
import Verif.Spec.Tools
import Verif.Spec.Normalize
import Verif.Spec.Setup

/-! # Specification of what the script `learning` leaves -/

namespace Ppocr.Spec

/-- A glyph file and a file of features hold what the lines taught: every picture that was cut out of a line once, in the
order of pictures, with the words and fonts it was shown with; and its features at the same place. -/
def Holding (ls : List Lesson) (glyphs datas : TextFile) : Prop :=
  ∃ out t d, glyphs = some t ∧ glyphsWrite out = .ok t ∧ datas = some (datasWrite d) ∧ Learnt (out.map LGlyph.img) d ∧
    (out.map LGlyph.img).Pairwise PictureLt ∧ (∀ a, a ∈ out.map LGlyph.img ↔ ∃ l ∈ ls, a ∈ l.pics) ∧
    ∀ g ∈ out, ∀ v, v ∈ g.views ↔
      ∃ l ∈ ls, (g.img, v.word) ∈ l.pics.zip l.words ∧ v.font = l.job.font ∧ v.info = 2 ^ 32 - 1

/-- The runs of `write_glyphs` are over these lines. -/
def Over (D : Disk) (rs : List Run) (ls : List Lesson) : Prop :=
  rs.map (fun r => (⟨D.image r.picture, D.text r.text, r.font⟩ : Job)) = ls.map Lesson.job

end Ppocr.Spec

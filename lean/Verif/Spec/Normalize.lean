import Verif.Spec.ImageCompare
import Verif.Model.GlyphIO

/-! # Merged glyphs -/

namespace Ppocr.Spec

/-- `out` has one glyph for each image of `gs`, in the order of images, and its views are those of the glyphs of `gs`
with this image. -/
structure Merged (gs out : List LGlyph) : Prop where
  order : out.Pairwise fun a b => PictureLt a.img b.img
  images : ∀ i, (∃ g ∈ out, g.img = i) ↔ ∃ g ∈ gs, g.img = i
  views : ∀ g ∈ out, ∀ v, v ∈ g.views ↔ ∃ g' ∈ gs, g'.img = g.img ∧ v ∈ g'.views

end Ppocr.Spec

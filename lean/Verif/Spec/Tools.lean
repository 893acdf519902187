import Verif.Spec.WordLines
import Verif.Spec.Program
import Verif.Model.Tools
import Verif.Spec.Utf

/-! # Specification of the learning tools -/

namespace Ppocr.Spec

/-- The words of a text: its pieces between blanks. -/
inductive TextWords : List Nat → List (List Nat) → Prop
  | stop (t : List Nat) : (∀ c ∈ t, Blank c) → TextWords t []
  | more (t w r : List Nat) (ws : List (List Nat)) : Word t w r → TextWords r ws → TextWords t (w :: ws)

/-- One glyph per letter, with one word, a font and the greatest `unsigned` as information. -/
def lineGlyphs (font : List Nat) (as : List Image) (ws : List (List Nat)) : List LGlyph :=
  List.zipWith (fun a w => ⟨a, [⟨w, font, 2 ^ 32 - 1⟩]⟩) as ws

/-- A line to learn from: its files, the image, the letters on it with their pictures, and the words of the text. -/
structure Lesson where
  job : Job
  image : Image
  boxes : List Box
  pics : List Image
  words : List (List Nat)

/-- The files of the line can be read, and this is what they hold. -/
structure Lesson.Holds (lum : Nat) (l : Lesson) : Prop where
  text : ∃ t, l.job.text = some t ∧ TextWords t l.words
  load : loadImage l.job.image lum = .ok l.image
  size : l.image.bounds.w * l.image.bounds.h + l.image.bounds.w ≤ 2 ^ 32
  seg : segment l.image = .ok l.boxes
  pics : Pictures l.image l.boxes l.pics

/-- The glyphs of a line. -/
def Lesson.glyphs (l : Lesson) : List LGlyph := lineGlyphs l.job.font l.pics l.words

/-- A text that holds only entries, and blanks at its end. -/
inductive EntryFile : List Nat → List Entry → Prop
  | stop (t : List Nat) : (∀ c ∈ t, Blank c) → EntryFile t []
  | more (t r : List Nat) (e : Entry) (es : List Entry) : HasEntry t e r → EntryFile r es → EntryFile t (e :: es)

/-- The letters that were shown with their words. -/
def taught (ls : List Lesson) : List (Image × List Nat) := ls.flatMap fun l => l.pics.zip l.words

/-- The letter looks like one that was shown, and those it looks like were all shown with the word of characters `cs`. -/
def Stands (ls : List Lesson) (a : Image) (cs : List Nat) : Prop :=
  (∀ c ∈ cs, Scalar c) ∧ (∃ p ∈ taught ls, Alike p.1 a) ∧ ∀ p ∈ taught ls, Alike p.1 a → p.2 = encAll cs

end Ppocr.Spec

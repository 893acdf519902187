import Verif.Props.Command
import Verif.Props.Learning

/-! # C74, C65: the names on the command line of `write_glyphs` -/

namespace Ppocr.Props
open Ppocr Spec

/-- The names as they stand on the command line: picture, text, font, picture, text, font, … -/
def Run.names (r : Run) : List (List Nat) := [r.picture, r.text, r.font]

/-- The files of these names. -/
def Run.job (D : Disk) (r : Run) : Job := ⟨D.image r.picture, D.text r.text, r.font⟩

theorem jobsOf_names (D : Disk) : ∀ rs : List Run, jobsOf D (rs.flatMap Run.names) = rs.map (Run.job D)
  | [] => rfl
  | r :: rs => by
    rw [List.flatMap_cons, List.map_cons, ← jobsOf_names D rs]
    rfl

theorem names_length : ∀ rs : List Run, (rs.flatMap Run.names).length = 3 * rs.length
  | [] => rfl
  | r :: rs => by
    rw [List.flatMap_cons, List.length_append, names_length rs, List.length_cons]
    show 3 + 3 * rs.length = _
    omega

/-- **C74**: the names on the command line are taken three by three, as picture, text and font, and every three of them are one
line to learn from, with the threshold of the option or 128. -/
theorem C74_triples (D : Disk) (r : Run) (rs : List Run) :
    (∀ v n, Numeral v n → n < 2 ^ 32 →
      writeGlyphsMain D (bytes "-l" :: v :: (r :: rs).flatMap Run.names) = (writeGlyphs n ((r :: rs).map (Run.job D))).ran) ∧
    (r.picture ≠ bytes "-l" →
      writeGlyphsMain D ((r :: rs).flatMap Run.names) = (writeGlyphs 128 ((r :: rs).map (Run.job D))).ran) := by
  have hl := names_length (r :: rs)
  have hj := jobsOf_names D (r :: rs)
  constructor
  · intro v n hv hn
    have := (C74_numeral_partial D v r.picture ([r.text, r.font] ++ rs.flatMap Run.names) n hv hn).2
    rw [show r.picture :: ([r.text, r.font] ++ rs.flatMap Run.names) = (r :: rs).flatMap Run.names from rfl, hj] at this
    exact this (by omega)
  · intro h
    have := (C74_no_option D ((r :: rs).flatMap Run.names) (.inl (by
      rw [List.flatMap_cons]
      show some r.picture ≠ _
      simpa using h))).2
    rw [this, hj, if_neg]
    rintro (h | h)
    · rw [h] at hl
      simp at hl
    · omega

/-- **C65** for the command: the glyphs of all letters of all pictures that are named. -/
theorem C65_main (D : Disk) (r : Run) (rs : List Run) (ls : List Lesson) (h : r.picture ≠ bytes "-l")
    (hj : ls.map Lesson.job = (r :: rs).map (Run.job D))
    (hh : ∀ l ∈ ls, l.Holds 128 ∧ l.words.length = l.boxes.length) :
    ∃ t, glyphsWrite (ls.flatMap Lesson.glyphs) = .ok t ∧ writeGlyphsMain D ((r :: rs).flatMap Run.names) = ⟨t, .ok 0⟩ := by
  obtain ⟨t, e1, e2, _⟩ := C65_lines 128 ls hh
  refine ⟨t, e1, ?_⟩
  rw [(C74_triples D r rs).2 h, ← hj, e2]
  rfl

/-- Two lines, of the same picture and text, for two fonts. -/
example : writeGlyphsMain deskDisk [[112], [116], bytes "one", [112], [116], bytes "two"] =
    ⟨bytes ("2 2 xxxx\n1\na one 4294967295\n1 2 xx\n1\n! one 4294967295\n2 2 xxxx\n1\na one 4294967295\n" ++
      "2 2 xxxx\n1\na two 4294967295\n1 2 xx\n1\n! two 4294967295\n2 2 xxxx\n1\na two 4294967295\n"), .ok 0⟩ := by
  rw [show [[112], [116], bytes "one", [112], [116], bytes "two"] =
    List.flatMap Run.names [⟨[112], [116], bytes "one"⟩, ⟨[112], [116], bytes "two"⟩] from rfl,
    (C74_triples deskDisk ⟨[112], [116], bytes "one"⟩ [⟨[112], [116], bytes "two"⟩]).2 (by decide +kernel)]
  decide +kernel

end Ppocr.Props

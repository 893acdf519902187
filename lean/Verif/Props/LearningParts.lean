import Verif.Props.Learning
import Verif.Props.NormalizeParts

/-! # C125: the files that the script `learning` leaves can be put together -/

namespace Ppocr.Props
open Ppocr Spec

/-- A glyph of `write_glyphs` has one view. -/
theorem lesson_one {l : Lesson} {g : LGlyph} (h : g ∈ l.glyphs) : ∃ v, g.views = [v] := by
  unfold Lesson.glyphs at h
  rw [zipWith_glyphs] at h
  obtain ⟨p, _, rfl⟩ := List.mem_map.1 h
  exact ⟨_, rfl⟩

/-- **C125** for the script `learning`, which removes the glyphs it has not normalised: the normalised glyphs of the Latin and of
the Cyrillic letters, normalised together, are the file that the script makes of both. -/
theorem C125_script (S S' : StdSort) (D : Disk) (latin cyrillic : List Run) (ls lc : List Lesson) (s : Store)
    (h1 : Over D latin ls) (h2 : Over D cyrillic lc) (h : Prepared (ls ++ lc)) :
    ∃ st t, learningScript S D latin cyrillic s = (st, .ok 0) ∧ st .normBoth = some t ∧
      normalizeMain S' [st .normLatin, st .normCyrillic] = .ok (0, t) := by
  obtain ⟨t1, t2, g1, g2, g3, d1, d2, d3, e1, e2, ⟨n1, n2, n3⟩, _, _, _, e⟩ := script_runs S D latin cyrillic ls lc s h1 h2 h
  obtain ⟨p1, p2⟩ := h.part
  refine ⟨_, g3, e, rfl, ?_⟩
  have hone : ∀ ls : List Lesson, ∀ g ∈ ls.flatMap Lesson.glyphs, g.views.Pairwise fun a b => viewLt a b = true := by
    intro ls g hg
    obtain ⟨l, _, hg⟩ := List.mem_flatMap.1 hg
    obtain ⟨v, e⟩ := lesson_one hg
    rw [e]
    exact List.pairwise_singleton _ _
  have := C125_files S S' [ls.flatMap Lesson.glyphs, lc.flatMap Lesson.glyphs] [t1, t2] [g1, g2]
    (by
      intro gs hgs
      rcases List.mem_cons.1 hgs with rfl | hgs
      · exact p1.good
      · rw [List.mem_singleton] at hgs
        subst hgs
        exact p2.good)
    (by simp [e1, e2])
    (by
      intro gs hgs
      rcases List.mem_cons.1 hgs with rfl | hgs
      · exact hone ls
      · rw [List.mem_singleton] at hgs
        subst hgs
        exact hone lc)
    (by
      intro gs hgs
      rcases List.mem_cons.1 hgs with rfl | hgs
      · exact p1.total
      · rw [List.mem_singleton] at hgs
        subst hgs
        exact p2.total)
    (by simp [n1, n2])
  show normalizeMain S' ([g1, g2].map some) = _
  rw [this, C71_program S' S]
  exact n3

/-- On the desk of C97: the two normalised files give the third, also with a sort that reverses what is equivalent. -/
example : ∃ st, learningScript insertionSort deskDisk [⟨[112], [116], bytes "font"⟩]
      [⟨[112], [116], bytes "font"⟩, ⟨[112], [116], bytes "font"⟩] oldStore = (st, .ok 0) ∧
    normalizeMain reversingSort [st .normLatin, st .normCyrillic] =
      .ok (0, bytes "1 2 xx\n1\n! font 4294967295\n2 2 xxxx\n1\na font 4294967295\n") := by
  obtain ⟨st, t, e, h1, h2⟩ := C125_script insertionSort reversingSort deskDisk _ _ _ _ oldStore desk_over.1 desk_over.2 desk_prepared
  have h : (learningScript insertionSort deskDisk [⟨[112], [116], bytes "font"⟩]
      [⟨[112], [116], bytes "font"⟩, ⟨[112], [116], bytes "font"⟩] oldStore).1 .normBoth =
        some (bytes "1 2 xx\n1\n! font 4294967295\n2 2 xxxx\n1\na font 4294967295\n") := by decide +kernel
  rw [e] at h
  have h := h1.symm.trans h
  rw [Option.some.injEq] at h
  subst h
  exact ⟨st, e, h2⟩

end Ppocr.Props

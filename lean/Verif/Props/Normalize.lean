import Verif.Proofs.Normalize

/-! # C51: merging glyphs -/

namespace Ppocr.Props
open Ppocr Spec

/-- **C51**: whatever the sorting algorithm, one glyph per image, in the order of images, with the views of all glyphs
with that image. The images only need a buffer of the size that the program computes for them. -/
theorem C51_merge (S : StdSort) (gs : List LGlyph) (h : ∀ g ∈ gs, g.img.Full) :
    ∃ out, normalizeGlyphs S gs = .ok out ∧ Merged gs out := by
  obtain ⟨out, e, hm, _⟩ := normalizeGlyphs_ok S gs h
  exact ⟨out, e, hm⟩

/-- `Merged` leaves no choice but the order and the repetition of the views: two such lists have the same images at
the same places, and the same views. -/
theorem C51_unique {gs out out' : List LGlyph} (h : Merged gs out) (h' : Merged gs out') :
    out.map LGlyph.img = out'.map LGlyph.img ∧
      ∀ g ∈ out, ∀ g' ∈ out', g.img = g'.img → ∀ v, v ∈ g.views ↔ v ∈ g'.views := by
  have hp : (out.map LGlyph.img).Pairwise PictureLt := List.pairwise_map.2 h.order
  have hp' : (out'.map LGlyph.img).Pairwise PictureLt := List.pairwise_map.2 h'.order
  have hm : ∀ i, i ∈ out.map LGlyph.img ↔ i ∈ out'.map LGlyph.img := by
    intro i
    rw [List.mem_map, List.mem_map, h.images, h'.images]
  have key : ∀ a b : List Image, a.Pairwise PictureLt → b.Pairwise PictureLt → (∀ i, i ∈ a ↔ i ∈ b) → a = b := by
    intro a
    induction a with
    | nil =>
      intro b _ _ hm
      cases b with
      | nil => rfl
      | cons x b => exact absurd ((hm x).2 (by simp)) (by simp)
    | cons x a ih =>
      intro b ha hb hm
      cases b with
      | nil => exact absurd ((hm x).1 (by simp)) (by simp)
      | cons y b =>
        rw [List.pairwise_cons] at ha hb
        have hxy : x = y := by
          rcases List.mem_cons.1 ((hm x).1 (by simp)) with e | hx
          · exact e
          · rcases List.mem_cons.1 ((hm y).2 (by simp)) with e | hy
            · exact e.symm
            · exact absurd ((ha.1 y hy).trans (hb.1 x hx)) (pictureLt_irrefl x)
        subst hxy
        rw [ih b ha.2 hb.2]
        intro i
        constructor
        · intro hi
          rcases List.mem_cons.1 ((hm i).1 (by simp [hi])) with e | h
          · subst e; exact absurd (ha.1 i hi) (pictureLt_irrefl i)
          · exact h
        · intro hi
          rcases List.mem_cons.1 ((hm i).2 (by simp [hi])) with e | h
          · subst e; exact absurd (hb.1 i hi) (pictureLt_irrefl i)
          · exact h
  exact ⟨key _ _ hp hp' hm, fun g hg g' hg' e v => by rw [h.views g hg, h'.views g' hg', e]⟩

/-- The whole program on any files: it ends; it either refuses the files and writes nothing, or writes the merged
glyphs of all files. Nothing is assumed about the contents of the files. -/
theorem C51_program (S : StdSort) (files : List (Option (List Nat))) (hne : files ≠ []) :
    ∃ code t, normalizeMain S files = .ok (code, t) ∧
      ((code = 0 ∧ ∃ gs out, readGlyphFiles files [] = .ok (.ok gs) ∧ Merged gs out ∧ glyphsWrite out = .ok t) ∨
       ((code = 2 ∨ code = 5) ∧ t = [])) := by
  obtain ⟨r, e, he, hl⟩ := readGlyphFiles_total files [] (by simp)
  unfold normalizeMain
  rw [if_neg hne, e, Res.ok_bind]
  cases r with
  | error c => exact ⟨c, [], rfl, .inr ⟨he c rfl, rfl⟩⟩
  | ok gs =>
    obtain ⟨out, eo, hm, _⟩ := normalizeGlyphs_ok S gs (hl gs rfl)
    obtain ⟨t, et⟩ := glyphsWrite_full (merged_full hm (hl gs rfl))
    refine ⟨0, t, ?_, .inl ⟨rfl, gs, out, rfl, hm, et⟩⟩
    simp only []
    rw [eo, Res.ok_bind, et, Res.ok_bind]
    rfl

/-- On files written by the tools: the output is a glyph file of the merged glyphs. -/
theorem C51_files (S : StdSort) (ins : List (List LGlyph)) (texts : List (List Nat)) (hne : texts ≠ [])
    (hg : ∀ gs ∈ ins, ∀ g ∈ gs, g.Good) (ht : ins.map glyphsWrite = texts.map Res.ok)
    (hc : (ins.flatten.flatMap LGlyph.views).length ≤ maxU) :
    ∃ t out s, normalizeMain S (texts.map some) = .ok (0, t) ∧ glyphsRead (IS.of t) [] = .ok (out, s) ∧
      Merged ins.flatten out := by
  have hg' : ∀ g ∈ ins.flatten, g.Good := by
    intro g hg'
    obtain ⟨l, hl, h⟩ := List.mem_flatten.1 hg'
    exact hg l hl g h
  obtain ⟨out, eo, hm, hv⟩ := normalizeGlyphs_ok S ins.flatten fun g h => (hg' g h).img.full
  have hgo := merged_good hm hg' fun g h => Nat.le_trans (hv g h) hc
  obtain ⟨t, et, hl⟩ := glyphsWrite_total hgo
  have hr : glyphsRead (IS.of t) [] = .ok ([] ++ out, ⟨[], true, true, true⟩) :=
    glyphsLoop_write out t [] (t.length + 1) [] [] hgo et (by simp) (by omega)
  refine ⟨t, out, _, ?_, hr, hm⟩
  unfold normalizeMain
  rw [if_neg (by simpa using hne), readGlyphFiles_write ins texts [] hg ht, Res.ok_bind]
  simp only [List.nil_append]
  rw [eo, Res.ok_bind, et, Res.ok_bind]
  rfl

/-- Two files with an image in common. -/
def dotA : List LGlyph := [⟨⟨⟨2, 1⟩, [120, 45]⟩, [⟨[105], [102], 1⟩, ⟨[105], [102], 1⟩]⟩,
  ⟨⟨⟨1, 1⟩, [120]⟩, [⟨[46], [103], 2⟩]⟩]
def dotB : List LGlyph := [⟨⟨⟨2, 1⟩, [120, 120]⟩, [⟨[45], [102], 3⟩]⟩,
  ⟨⟨⟨1, 1⟩, [120]⟩, [⟨[44], [102], 4⟩, ⟨[46], [103], 2⟩]⟩]

example : normalizeGlyphs insertionSort (dotA ++ dotB) = .ok
    [⟨⟨⟨1, 1⟩, [120]⟩, [⟨[44], [102], 4⟩, ⟨[46], [103], 2⟩]⟩,
     ⟨⟨⟨2, 1⟩, [120, 45]⟩, [⟨[105], [102], 1⟩]⟩, ⟨⟨⟨2, 1⟩, [120, 120]⟩, [⟨[45], [102], 3⟩]⟩] := by decide +kernel

/-- Without two glyphs of the same image, the views stay as they were, even repeated. -/
example : normalizeGlyphs insertionSort dotA = .ok
    [⟨⟨⟨1, 1⟩, [120]⟩, [⟨[46], [103], 2⟩]⟩,
     ⟨⟨⟨2, 1⟩, [120, 45]⟩, [⟨[105], [102], 1⟩, ⟨[105], [102], 1⟩]⟩] := by decide +kernel

example : normalizeMain insertionSort
    [some [49, 32, 49, 32, 120, 10, 49, 10, 97, 32, 102, 32, 55, 10], some [49, 32, 49, 32, 120, 10, 48, 10]] =
    .ok (0, [49, 32, 49, 32, 120, 10, 49, 10, 97, 32, 102, 32, 55, 10]) := by decide +kernel

/-- A file with something else behind the glyphs. -/
example : normalizeMain insertionSort [some [49, 32, 49, 32, 120, 10, 48, 10, 97]] = .ok (5, []) := by decide +kernel

end Ppocr.Props

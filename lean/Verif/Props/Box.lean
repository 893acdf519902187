import Verif.Proofs.Box

/-! # C12–C14: cutting a line into characters -/

namespace Ppocr.Props
open Ppocr Spec

/-- A 6×3 line with two characters: one in columns 1-2 (joined diagonally), one in column 4. -/
def line63 : Image := ⟨⟨6, 3⟩, [45, 45, 45, 45, 45, 45,
                                45, 120, 45, 45, 120, 45,
                                45, 45, 120, 45, 120, 45]⟩

theorem line63_WF : line63.WF := ⟨by decide, by decide, by decide, by decide⟩

/-- **C12** for every image whose area plus width fits in 32 bits.  (What is missing: beyond that the
code computes a wrapped offset, see `C12_huge_image`.)  Either a non-empty box is returned and it is
tight, or an empty one is returned and there is nothing to find before the last column, or the image
has a single blank row and the `assert` of `Image::data` fires.  No other outcome is possible, in
particular no read outside the image. -/
theorem C12_make_box_partial (i : Image) (wf : i.WF) (x0 : Nat) (hx : x0 < i.bounds.w)
    (hh : 0 < i.bounds.h) (hsz : i.bounds.w * i.bounds.h + i.bounds.w ≤ W32) :
    (∃ b, makeBox i x0 0 i.bounds = .ok b ∧ b.truthy = true ∧ CharBox i x0 b) ∨
    (∃ b, makeBox i x0 0 i.bounds = .ok b ∧ b.truthy = false ∧
      ∀ c, x0 ≤ c → c + 1 < i.bounds.w → BlankCol i c) ∨
    (makeBox i x0 0 i.bounds = .abort ∧ i.bounds.h = 1 ∧
      ∀ c, x0 ≤ c → c < i.bounds.w → BlankCol i c) := by
  rcases makeBox_ok wf hx hh hsz with h | ⟨b, h1, h2, h3, _⟩ | h
  · exact .inl h
  · exact .inr (.inl ⟨b, h1, h2, h3⟩)
  · exact .inr (.inr h)

example : makeBox line63 0 0 line63.bounds = .ok ⟨1, 1, 2, 2⟩ := by decide
example : makeBox line63 3 0 line63.bounds = .ok ⟨4, 1, 1, 2⟩ := by decide

/-- With at least two rows the function returns normally. -/
theorem C12_total (i : Image) (wf : i.WF) (x0 : Nat) (hx : x0 < i.bounds.w)
    (hh : 1 < i.bounds.h) (hsz : i.bounds.w * i.bounds.h + i.bounds.w ≤ W32) :
    ∃ b, makeBox i x0 0 i.bounds = .ok b ∧ (b.truthy = true → CharBox i x0 b) := by
  rcases makeBox_ok wf hx (by omega) hsz with ⟨b, h1, _, h3⟩ | ⟨b, h1, h2, _, _⟩ | ⟨_, h2, _⟩
  · exact ⟨b, h1, fun _ => h3⟩
  · exact ⟨b, h1, fun h => by rw [h2] at h; simp at h⟩
  · omega

example : ∃ b, makeBox line63 1 0 line63.bounds = .ok b ∧ b.w = 2 :=
  ⟨⟨1, 1, 2, 2⟩, by decide, by decide⟩

/-- The single-row case is reachable: one blank row makes the `assert` fail. -/
theorem C12_single_blank_row :
    makeBox ⟨⟨2, 1⟩, [45, 45]⟩ 0 0 ⟨2, 1⟩ = .abort := by decide

/-- A 1431655765×3 image (area 2^32 − 1) with one letter pixel, at column 1 of the first row. -/
def hugeImage : Image :=
  ⟨⟨1431655765, 3⟩, grid 3 1431655765 fun r c => if r = 0 ∧ c = 1 then 120 else 45⟩

theorem hugeImage_WF : hugeImage.WF :=
  grid_WF _ (by decide) (by decide) (by decide)

theorem hugeImage_letter (x y : Nat) : letter hugeImage x y = true ↔ x = 1 ∧ y = 0 := by
  by_cases h : x < 1431655765 ∧ y < 3
  · have hp : pix hugeImage x y = _ := pix_grid _ h.1 h.2
    simp only [letter, hp]
    by_cases hc : y = 0 ∧ x = 1
    · simp [hc, chX]
    · simp [hc, chX]; omega
  · rw [letter_out h]
    simp; omega

/-- **C12 is false without the size hypothesis**: on this image the offset of the bottom row wraps
to 0 and the next step leaves the buffer. -/
theorem C12_huge_image : makeBox hugeImage 0 0 hugeImage.bounds = .ub := by
  have hw : hugeImage.bounds.w = 1431655765 := rfl
  have hh : hugeImage.bounds.h = 3 := rfl
  obtain ⟨x, w, c1, c2, c3, c4, c5, c6, c7⟩ :=
    makeBox_cols hugeImage_WF (x0 := 0) (by decide) (by decide) (by decide)
  have hx : x = 1 := by
    have h1 : ¬ 1 < x := by
      intro h
      have := c3 1 (by omega) h 0
      rw [(hugeImage_letter 1 0).2 ⟨rfl, rfl⟩] at this
      simp at this
    have h0 : x ≠ 0 := by
      intro h
      obtain ⟨y, hy⟩ := not_blank (c4 (by omega))
      have := (hugeImage_letter x y).1 hy
      omega
    omega
  subst hx
  obtain ⟨d1, d2, d3, _⟩ := c6 (by omega)
  have hw1 : w = 1 := by
    apply Decidable.byContradiction
    intro hn
    obtain ⟨y, y', _, h2, _⟩ := d3 1 (by omega) (by omega)
    have := (hugeImage_letter _ _).1 h2
    omega
  subst hw1
  rw [c7]
  unfold boxRows
  rw [dataAt_eq hugeImage_WF (x := 1) (y := 0) (by decide) (by decide)]
  simp only [Res.ok_bind]
  obtain ⟨y, a1, _, _, a4, _⟩ :=
    skipBlankRows_ok hugeImage_WF (x := 1) (w := 1) (by omega) (hugeImage.bounds.h + 1) 0
      (by omega) (by omega)
  have hy : y = 0 := by
    apply Decidable.byContradiction
    intro hn
    have := a4 0 (by omega) (by omega) 1 (by omega) (by omega)
    rw [(hugeImage_letter 1 0).2 ⟨rfl, rfl⟩] at this
    simp at this
  rw [a1, hy]
  simp only [Res.ok_bind]
  have ht : hugeImage.toSizeT 1 hugeImage.bounds.h = 0 := by decide
  rw [ht, hh]
  unfold skipBottomRows
  have h2 : usub 3 1 = 2 := by decide
  simp only [h2, hw]
  simp

/-- **C13** for images of at least two rows (or whose last column is not blank): the loop stops, the
boxes are character boxes, in reading order and disjoint, at most `width - 1` of them, each a maximal
run of joined columns (up to the last column of the image).  (What is missing: single-row images with
a blank last column make an `assert` fail, see `C13_single_row`; images of almost 2^32 pixels, see
`C12_huge_image`.) -/
theorem C13_segmentation_partial (i : Image) (wf : i.WF) (hw : 0 < i.bounds.w) (hh : 0 < i.bounds.h)
    (hsz : i.bounds.w * i.bounds.h + i.bounds.w ≤ W32)
    (hrow : 1 < i.bounds.h ∨ ¬ BlankCol i (i.bounds.w - 1)) :
    ∃ bs, segment i = .ok bs ∧ bs.length < i.bounds.w ∧
      (∀ b ∈ bs, (∃ x0, CharBox i x0 b) ∧ (0 < b.x → ¬ Joined i (b.x - 1))) ∧
      bs.Pairwise (fun a b => a.x + a.w ≤ b.x) := by
  rcases segmentFrom_ok wf hh hsz (i.bounds.w + 1) 0 hw (by omega) (by omega) with
    ⟨bs, h1, _, h3, h4, h5, _⟩ | ⟨_, h2, h3⟩
  · exact ⟨bs, h1, by omega, fun b hb => (h4 b hb).2, h5⟩
  · rcases hrow with h | h
    · omega
    · exact absurd h3 h

example : segment line63 = .ok [⟨1, 1, 2, 2⟩, ⟨4, 1, 1, 2⟩] := by decide

/-- **C13 is false for single-row images**: every one whose last column is blank stops on a failed
`assert` instead of returning. -/
theorem C13_single_row (i : Image) (wf : i.WF) (hw : 0 < i.bounds.w) (hh : i.bounds.h = 1)
    (hsz : i.bounds.w * i.bounds.h + i.bounds.w ≤ W32) (hb : BlankCol i (i.bounds.w - 1)) :
    segment i = .abort := by
  rcases segmentFrom_ok wf (by omega) hsz (i.bounds.w + 1) 0 hw (by omega) (by omega) with
    ⟨bs, _, h2, _⟩ | ⟨h1, _, _⟩
  · rcases h2 with h | h
    · omega
    · exact absurd hb h
  · exact h1

example : segment ⟨⟨4, 1⟩, [45, 120, 45, 45]⟩ = .abort := by decide
example : segment ⟨⟨4, 1⟩, [45, 120, 45, 120]⟩ = .ok [⟨1, 0, 1, 1⟩] := by decide

/-- **C14** for letter pixels outside the last column: each is in one of the boxes, and in only one.
(What is missing: pixels of the last column, see `C14_last_column`.) -/
theorem C14_coverage_partial (i : Image) (wf : i.WF) (hh : 0 < i.bounds.h)
    (hsz : i.bounds.w * i.bounds.h + i.bounds.w ≤ W32) (bs : List Box) (hs : segment i = .ok bs)
    (x y : Nat) (hx : x + 1 < i.bounds.w) (hl : letter i x y = true) :
    ∃ b ∈ bs, InBox b x y ∧ ∀ a ∈ bs, InBox a x y → a = b := by
  rcases segmentFrom_ok wf hh hsz (i.bounds.w + 1) 0 (by omega) (by omega) (by omega) with
    ⟨bs', h1, _, _, _, h5, h6⟩ | ⟨h1, _⟩
  · have : bs = bs' := by
      have := hs.symm.trans h1
      simpa using this
    subst this
    obtain ⟨b, hb, hin⟩ := h6 x y (by omega) hx hl
    refine ⟨b, hb, hin, ?_⟩
    intro a ha hina
    clear h1 h6 hs
    have key : ∀ (l : List Box), l.Pairwise (fun a b => a.x + a.w ≤ b.x) → a ∈ l → b ∈ l → a = b := by
      intro l
      induction l with
      | nil => intro _ h; simp at h
      | cons c l ih =>
        intro hp h1 h2
        rw [List.pairwise_cons] at hp
        have := hin.1; have := hin.2.1; have := hina.1; have := hina.2.1
        rcases List.mem_cons.1 h1 with rfl | h1'
        · rcases List.mem_cons.1 h2 with rfl | h2'
          · rfl
          · have := hp.1 b h2'; omega
        · rcases List.mem_cons.1 h2 with rfl | h2'
          · have := hp.1 a h1'; omega
          · exact ih hp.2 h1' h2'
    exact key bs h5 ha hb
  · have := hs.symm.trans h1
    simp at this

example : ∃ b ∈ [(⟨1, 1, 2, 2⟩ : Box), ⟨4, 1, 1, 2⟩], InBox b 2 2 ∧
    ∀ a ∈ [(⟨1, 1, 2, 2⟩ : Box), ⟨4, 1, 1, 2⟩], InBox a 2 2 → a = b :=
  C14_coverage_partial line63 line63_WF (by decide) (by decide) _ (by decide) 2 2 (by decide)
    (by decide)

/-- **C14 is false in the last column**, for every image: no box ever contains a pixel of it. -/
theorem C14_last_column (i : Image) (wf : i.WF) (hh : 0 < i.bounds.h) (hw : 0 < i.bounds.w)
    (hsz : i.bounds.w * i.bounds.h + i.bounds.w ≤ W32) (bs : List Box) (hs : segment i = .ok bs)
    (y : Nat) : ∀ b ∈ bs, ¬ InBox b (i.bounds.w - 1) y := by
  rcases segmentFrom_ok wf hh hsz (i.bounds.w + 1) 0 (by omega) (by omega) (by omega) with
    ⟨bs', h1, _, _, h4, _⟩ | ⟨h1, _⟩
  · have : bs = bs' := by
      have := hs.symm.trans h1
      simpa using this
    subst this
    intro b hb hin
    obtain ⟨_, ⟨x0, hc⟩, _⟩ := h4 b hb
    have := hc.notLast
    have := hin.2.1
    omega
  · have := hs.symm.trans h1
    simp at this

/-- Concretely: a letter touching the right edge is cut off, one alone in the last column is lost. -/
theorem C14_lost_letter :
    segment ⟨⟨3, 2⟩, [120, 45, 120, 120, 45, 120]⟩ = .ok [⟨0, 0, 1, 2⟩] ∧
    letter ⟨⟨3, 2⟩, [120, 45, 120, 120, 45, 120]⟩ 2 0 = true := by decide

end Ppocr.Props

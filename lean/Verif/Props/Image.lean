import Verif.Proofs.ImageCompare

/-! # C01–C05: images -/

namespace Ppocr.Props
open Ppocr Spec

/-- A 3×2 test picture. -/
def img32 : Image := ⟨⟨3, 2⟩, [120, 45, 45, 45, 120, 120]⟩

theorem img32_WF : img32.WF := ⟨by decide, by decide, by decide, by decide⟩

/-- **C01.** A rectangle inside the image (with its corner on a pixel) is copied exactly; the result
being `ok` also says that no access was out of bounds. -/
theorem C01_section (i : Image) (wf : i.WF) (x y : Nat) (b : Bounds)
    (hx : x < i.bounds.w) (hy : y < i.bounds.h)
    (hw : x + b.w ≤ i.bounds.w) (hh : y + b.h ≤ i.bounds.h) :
    ∃ r : Image, i.section x y b = .ok r ∧ r.WF ∧ r.bounds = b ∧
      ∀ c l, c < b.w → l < b.h → pix r c l = pix i (x + c) (y + l) := by
  have hs : b.w * b.h < W32 := by
    have := Nat.mul_le_mul (show b.w ≤ i.bounds.w by omega) (show b.h ≤ i.bounds.h by omega)
    have := wf.small
    omega
  have hwl := wf.w_lt
  have hhl := wf.h_lt
  refine ⟨⟨b, grid b.h b.w fun r c => pixD i (x + c) (y + r)⟩, ?_, ?_, rfl, ?_⟩
  · unfold Image.section Bounds.contains
    rw [uadd_eq (show b.w + x < W32 by omega), uadd_eq (show b.h + y < W32 by omega)]
    simp only [hx, hy, decide_true, Bool.and_true, assert_true, Res.ok_bind,
      show b.w + x ≤ i.bounds.w by omega, show b.h + y ≤ i.bounds.h by omega]
    have ha : b.area = b.w * b.h := umul_eq hs
    rw [sectionInto_ok wf hx hy (by omega) (by omega) rfl (by simp [ha])]
    simp [Out.toImage, ha, Nat.mul_comm]
  · exact grid_WF _ (by omega) (by omega) hs
  · intro c l hc hl
    rw [pix_grid _ hc hl, pix_pixD wf (by omega) (by omega)]

example : ∃ r, img32.section 1 0 ⟨2, 2⟩ = .ok r ∧ pix r 1 1 = pix img32 2 1 := by
  obtain ⟨r, h, _, _, hp⟩ := C01_section img32 img32_WF 1 0 ⟨2, 2⟩ (by decide) (by decide)
    (by decide) (by decide)
  exact ⟨r, h, hp 1 1 (by decide) (by decide)⟩

/-- **C02.** `rotate90` returns normally (no out-of-bounds access, the pointer loops terminate) and
is the counter-clockwise quarter turn. -/
theorem C02_rotate90 (i : Image) (wf : i.WF) :
    ∃ r : Image, i.rotate90 = .ok r ∧ r.WF ∧
      r.bounds.w = i.bounds.h ∧ r.bounds.h = i.bounds.w ∧
      ∀ x y, x < i.bounds.h → y < i.bounds.w → pix r x y = pix i (i.bounds.w - 1 - y) x := by
  refine ⟨⟨⟨i.bounds.h, i.bounds.w⟩,
    grid i.bounds.w i.bounds.h (fun r c => pixD i (i.bounds.w - 1 - r) c)⟩, ?_, ?_, rfl, rfl, ?_⟩
  · unfold Image.rotate90
    rw [rotLoop_ok wf i.bounds.w _ (by omega) (Nat.le_refl _) (by simp [grid_zero])]
    simp [Out.toImage, area_eq wf]
  · exact grid_WF _ wf.h_lt wf.w_lt (by rw [Nat.mul_comm]; exact wf.small)
  · intro x y hx hy
    rw [pix_grid _ hx hy, pix_pixD wf (by omega) hx]

example : ∃ r, img32.rotate90 = .ok r ∧ r.bounds = ⟨2, 3⟩ ∧ r.data = [45, 120, 45, 120, 120, 45] :=
  ⟨_, rfl, rfl, by decide⟩

/-- Pixel of the rotated picture at any coordinate. -/
theorem rot_pix {i r : Image} (wf : i.WF) (h : i.rotate90 = .ok r) :
    r.WF ∧ r.bounds.w = i.bounds.h ∧ r.bounds.h = i.bounds.w ∧
      ∀ x y, x < i.bounds.h → y < i.bounds.w → pix r x y = pix i (i.bounds.w - 1 - y) x := by
  obtain ⟨r', h', h1, h2, h3, h4⟩ := C02_rotate90 i wf
  rw [h] at h'
  obtain rfl : r = r' := by simpa using h'
  exact ⟨h1, h2, h3, h4⟩

/-- **C03.** Two quarter turns are the half turn and four are the identity. -/
theorem C03_four_turns (i : Image) (wf : i.WF) :
    ∃ r1 r2 r3, i.rotate90 = .ok r1 ∧ r1.rotate90 = .ok r2 ∧ r2.rotate90 = .ok r3 ∧
      r3.rotate90 = .ok i ∧
      r2.bounds = i.bounds ∧
      ∀ x y, x < i.bounds.w → y < i.bounds.h →
        pix r2 x y = pix i (i.bounds.w - 1 - x) (i.bounds.h - 1 - y) := by
  obtain ⟨r1, e1, w1, a1, b1, p1⟩ := C02_rotate90 i wf
  obtain ⟨r2, e2, w2, a2, b2, p2⟩ := C02_rotate90 r1 w1
  obtain ⟨r3, e3, w3, a3, b3, p3⟩ := C02_rotate90 r2 w2
  obtain ⟨r4, e4, w4, a4, b4, p4⟩ := C02_rotate90 r3 w3
  have half : ∀ x y, x < i.bounds.w → y < i.bounds.h →
      pix r2 x y = pix i (i.bounds.w - 1 - x) (i.bounds.h - 1 - y) := by
    intro x y hx hy
    rw [p2 x y (by omega) (by omega), p1 _ _ (by omega) (by omega)]
    congr 1; omega
  have h4 : r4 = i := by
    apply Image.ext_pix w4 wf
    refine ⟨by omega, by omega, ?_⟩
    intro x y
    by_cases h : x < i.bounds.w ∧ y < i.bounds.h
    · obtain ⟨hx, hy⟩ := h
      rw [p4 x y (by omega) (by omega), p3 _ _ (by omega) (by omega), half _ _ (by omega) (by omega)]
      congr 1 <;> omega
    · rw [pix_none h, pix_none (by omega)]
  subst h4
  refine ⟨r1, r2, r3, e1, e2, e3, e4, ?_, half⟩
  cases hb : r2.bounds; cases hb' : r4.bounds
  simp_all

/-- **C03.** A quarter turn keeps every pixel: the buffers are permutations of each other. -/
theorem C03_same_pixels (i r : Image) (wf : i.WF) (h : i.rotate90 = .ok r) :
    r.data.Perm i.data := by
  have hr : r.data = grid i.bounds.w i.bounds.h (fun r c => pixD i (i.bounds.w - 1 - r) c) := by
    unfold Image.rotate90 at h
    rw [rotLoop_ok wf i.bounds.w _ (by omega) (Nat.le_refl _) (by simp [grid_zero])] at h
    simp [Out.toImage, area_eq wf] at h
    rw [← h]
  have hi : i.data = grid i.bounds.h i.bounds.w (fun r c => pixD i c r) := by
    refine eq_of_cells wf.len (by simp [Nat.mul_comm]) ?_
    intro x y hx hy
    rw [grid_get _ _ _ hx hy, pixD_eq wf hx hy]
  rw [hr, hi]
  exact (grid_reverse_perm _ _ (fun x y => pixD i x y)).trans (grid_transpose_perm _ _ _)

example : ∃ r, img32.rotate90 = .ok r ∧ r.data.Perm img32.data := by
  obtain ⟨r, h, _⟩ := C02_rotate90 img32 img32_WF
  exact ⟨r, h, C03_same_pixels _ _ img32_WF h⟩

/-- **C04.** `clone` of a non-empty image is that image. -/
theorem C04_clone (i : Image) (wf : i.WF) (hw : 0 < i.bounds.w) (hh : 0 < i.bounds.h) :
    i.clone = .ok i := by
  obtain ⟨r, h1, h2, h3, h4⟩ := C01_section i wf 0 0 i.bounds hw hh (by omega) (by omega)
  unfold Image.clone
  rw [h1]
  congr 1
  apply Image.ext_pix h2 wf
  refine ⟨by rw [h3], by rw [h3], ?_⟩
  intro x y
  by_cases h : x < i.bounds.w ∧ y < i.bounds.h
  · rw [h4 x y h.1 h.2]; simp
  · rw [pix_none h, pix_none (by rw [h3]; exact h)]

/-- **C04.** On an empty image `clone` fails its assertion, whatever the image. -/
theorem C04_clone_empty (i : Image) (h : i.bounds.w = 0 ∨ i.bounds.h = 0) : i.clone = .abort := by
  unfold Image.clone Image.section Bounds.contains
  rcases h with h | h <;> simp [h]

/-- **C04.** `operator==` is total on images and decides picture equality. -/
theorem C04_eq (a b : Image) (wa : a.WF) (wb : b.WF) :
    ∃ v, a.eq b = .ok v ∧ (v = true ↔ SamePicture a b) := by
  by_cases hw : a.bounds.w = b.bounds.w
  · by_cases hh : a.bounds.h = b.bounds.h
    · have hn := umul_eq wa.small
      have hla := wa.len
      have hlb := wb.len
      rw [← hw, ← hh] at hlb
      refine ⟨decide (a.data = b.data), ?_, ?_⟩
      · unfold Image.eq
        rw [if_pos hw, if_pos hh, hn, equalN_ok _ _ _ _ (by omega) (by omega)]
        simp [← hla, List.take_of_length_le (Nat.le_of_eq (hlb.trans hla.symm))]
      · simp [samePicture_iff_data wa wb hw hh]
    · exact ⟨false, by simp [Image.eq, hw, hh], by simp [SamePicture, hh]⟩
  · exact ⟨false, by simp [Image.eq, hw], by simp [SamePicture, hw]⟩

/-- **C04.** A clone compares equal to its source. -/
theorem C04_clone_eq (i : Image) (wf : i.WF) (hw : 0 < i.bounds.w) (hh : 0 < i.bounds.h) :
    ∃ c, i.clone = .ok c ∧ c.eq i = .ok true := by
  refine ⟨i, C04_clone i wf hw hh, ?_⟩
  obtain ⟨v, h1, h2⟩ := C04_eq i i wf wf
  rw [h1, h2.2 ⟨rfl, rfl, fun _ _ => rfl⟩]

example : ∃ c, img32.clone = .ok c ∧ c.eq img32 = .ok true :=
  C04_clone_eq img32 img32_WF (by decide) (by decide)
example : img32.eq ⟨⟨3, 2⟩, [120, 45, 45, 45, 45, 120]⟩ = .ok false := by decide

/-- **C05.** `image_compare` always answers -1, 0 or 1; swapping the arguments changes the sign; it
answers 0 exactly on equal pictures (so exactly when `operator==` holds), and a negative number
exactly when the first picture precedes in the width/height/first-difference order. -/
theorem C05_compare (a b : Image) (wa : a.WF) (wb : b.WF) :
    ∃ c, imageCompare a b = .ok c ∧ imageCompare b a = .ok (-c) ∧ (c = -1 ∨ c = 0 ∨ c = 1) ∧
      (c = 0 ↔ SamePicture a b) ∧ (c = 0 ↔ a.eq b = .ok true) ∧ (c < 0 ↔ PictureLt a b) := by
  obtain ⟨c, h1, h2, h3, h4, h5⟩ := imageCompare_spec wa wb
  obtain ⟨v, e1, e2⟩ := C04_eq a b wa wb
  refine ⟨c, h1, h2, h3, h4, ?_, h5⟩
  rw [h4, e1, ← e2]
  simp

/-- **C05.** The `<` used by the image cache and by sorting is transitive. -/
theorem C05_trans (a b c : Image) (wa : a.WF) (wb : b.WF) (wc : c.WF)
    (h1 : imageLess a b = .ok true) (h2 : imageLess b c = .ok true) :
    imageLess a c = .ok true := by
  obtain ⟨u, e1, _, _, _, f1⟩ := imageCompare_spec wa wb
  obtain ⟨v, e2, _, _, _, f2⟩ := imageCompare_spec wb wc
  obtain ⟨w, e3, _, _, _, f3⟩ := imageCompare_spec wa wc
  simp only [imageLess, e1, e2, e3, Res.ok_bind, Res.pure_eq, Res.ok.injEq, decide_eq_true_eq] at *
  exact f3.2 (PictureLt.trans (f1.1 h1) (f2.1 h2))

/-- **C05.** Irreflexive, and total: of two different pictures exactly one precedes the other. -/
theorem C05_total (a b : Image) (wa : a.WF) (wb : b.WF) :
    imageLess a a = .ok false ∧
    (¬ SamePicture a b →
      (imageLess a b = .ok true ∧ imageLess b a = .ok false) ∨
      (imageLess a b = .ok false ∧ imageLess b a = .ok true)) := by
  constructor
  · obtain ⟨u, e1, _, _, f, _⟩ := imageCompare_spec wa wa
    have := f.2 ⟨rfl, rfl, fun _ _ => rfl⟩
    subst this
    simp [imageLess, e1]
  · intro hne
    obtain ⟨u, e1, e2, h, f, _⟩ := imageCompare_spec wa wb
    have hu : u ≠ 0 := fun h => hne (f.1 h)
    simp only [imageLess, e1, e2, Res.ok_bind, Res.pure_eq, Res.ok.injEq, decide_eq_true_eq,
      decide_eq_false_iff_not]
    omega

example : imageLess ⟨⟨1, 2⟩, [45, 45]⟩ ⟨⟨1, 2⟩, [45, 120]⟩ = .ok true ∧
    imageLess ⟨⟨1, 2⟩, [45, 120]⟩ ⟨⟨2, 1⟩, [45, 45]⟩ = .ok true ∧
    imageLess ⟨⟨1, 1⟩, [200]⟩ ⟨⟨1, 1⟩, [45]⟩ = .ok true := by decide

end Ppocr.Props

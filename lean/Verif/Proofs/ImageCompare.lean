import Verif.Proofs.Image
import Verif.Spec.ImageCompare

namespace Ppocr
open Spec

theorem schar_inj {p q : Pixel} (h : schar p = schar q) : p = q := by
  apply UInt8.toNat_inj.1
  have hp := p.toNat_lt
  have hq := q.toNat_lt
  unfold schar at h
  split at h <;> split at h <;> omega

/-- `mismatchN` returns the first offset at which the buffers differ. -/
theorem mismatchN_ok (a b : List Pixel) (n : Nat) : ∀ i, i + n ≤ a.length → i + n ≤ b.length →
    (∀ j, j < i → a[j]? = b[j]?) →
    ∃ k, mismatchN a b n i = .ok k ∧ k ≤ i + n ∧ (∀ j, j < k → a[j]? = b[j]?) ∧
      (k < i + n → a[k]? ≠ b[k]?) := by
  induction n with
  | zero => intro i _ _ h; exact ⟨i, rfl, by omega, h, by omega⟩
  | succ n ih =>
    intro i ha hb h
    have ha' : i < a.length := by omega
    have hb' : i < b.length := by omega
    unfold mismatchN
    rw [rd_of_lt ha', rd_of_lt hb']
    simp only [Res.ok_bind]
    by_cases e : a[i] = b[i]
    · rw [if_pos e]
      obtain ⟨k, h1, h2, h3, h4⟩ := ih (i + 1) (by omega) (by omega) (by
        intro j hj
        by_cases hji : j = i
        · subst hji; simp [ha', hb', e]
        · exact h j (by omega))
      exact ⟨k, h1, by omega, h3, fun hk => h4 (by omega)⟩
    · rw [if_neg e]
      refine ⟨i, rfl, by omega, h, ?_⟩
      intro _
      simp [ha', hb', e]

/-- The two pictures first differ at offset `k`. -/
def FirstDiff (a b : Image) (k : Nat) (p q : Pixel) : Prop :=
  (∀ j, j < k → a.data[j]? = b.data[j]?) ∧ a.data[k]? = some p ∧ b.data[k]? = some q ∧ p ≠ q

theorem FirstDiff.unique {a b : Image} {k k' : Nat} {p q p' q' : Pixel}
    (h : FirstDiff a b k p q) (h' : FirstDiff a b k' p' q') : k = k' ∧ p = p' ∧ q = q' := by
  obtain ⟨h1, h2, h3, h4⟩ := h
  obtain ⟨h1', h2', h3', h4'⟩ := h'
  have : k = k' := by
    rcases Nat.lt_trichotomy k k' with hh | hh | hh
    · have := h1' k hh; rw [h2, h3] at this; simp_all
    · exact hh
    · have := h1 k' hh; rw [h2', h3'] at this; simp_all
  subst this
  simp_all

/-- The buffer has as many cells as the code computes, although `width * height` may have wrapped around. -/
def Image.Full (i : Image) : Prop := i.data.length = umul i.bounds.w i.bounds.h

theorem Image.WF.full {i : Image} (h : i.WF) : i.Full := by
  unfold Image.Full
  rw [umul_eq h.small, h.len]

/-- Case analysis of `image_compare` on images of the same size. -/
theorem imageCompare_same {a b : Image} (wa : a.Full) (wb : b.Full) (hw : a.bounds.w = b.bounds.w)
    (hh : a.bounds.h = b.bounds.h) :
    (imageCompare a b = .ok 0 ∧ a.data = b.data) ∨
    ∃ k p q, FirstDiff a b k p q ∧
      imageCompare a b = .ok (if schar p < schar q then -1 else 1) := by
  have hla : a.data.length = umul a.bounds.w a.bounds.h := wa
  have hlb : b.data.length = umul b.bounds.w b.bounds.h := wb
  obtain ⟨k, h1, h2, h3, h4⟩ := mismatchN_ok a.data b.data (umul a.bounds.w a.bounds.h) 0
    (by omega) (by rw [hlb, hw, hh]; omega) (by omega)
  have hc : imageCompare a b = (do
      if k = umul a.bounds.w a.bounds.h then return 0
      else
        let x ← rd a.data k
        let y ← rd b.data k
        if schar x < schar y then return (-1) else return 1) := by
    unfold imageCompare
    rw [if_neg (by omega), if_neg (by omega), if_neg (by omega), if_neg (by omega)]
    simp only [h1, Res.ok_bind]
  by_cases hk : k = umul a.bounds.w a.bounds.h
  · left
    refine ⟨by rw [hc, if_pos hk]; rfl, ?_⟩
    apply List.ext_getElem?
    intro j
    by_cases hj : j < k
    · exact h3 j hj
    · rw [List.getElem?_eq_none (by omega), List.getElem?_eq_none (by rw [hlb, ← hw, ← hh]; omega)]
  · right
    have hka : k < a.data.length := by omega
    have hkb : k < b.data.length := by rw [hlb, ← hw, ← hh]; omega
    refine ⟨k, a.data[k], b.data[k], ⟨h3, by simp [hka], by simp [hkb], ?_⟩, ?_⟩
    · intro e
      exact h4 (by omega) (by simp [hka, hkb, e])
    · rw [hc, if_neg hk, rd_of_lt hka, rd_of_lt hkb]
      simp only [Res.ok_bind]
      split <;> rfl

theorem FirstDiff.symm {a b : Image} {k : Nat} {p q : Pixel} (h : FirstDiff a b k p q) :
    FirstDiff b a k q p :=
  ⟨fun j hj => (h.1 j hj).symm, h.2.2.1, h.2.1, fun e => h.2.2.2 e.symm⟩

theorem samePicture_iff_data {a b : Image} (wa : a.WF) (wb : b.WF) (hw : a.bounds.w = b.bounds.w)
    (hh : a.bounds.h = b.bounds.h) : SamePicture a b ↔ a.data = b.data := by
  constructor
  · intro h; rw [Image.ext_pix wa wb h]
  · intro h
    refine ⟨hw, hh, ?_⟩
    intro x y
    unfold pix
    rw [h, hw, hh]

theorem image_eq_iff {a b : Image} (h : a.bounds.w = b.bounds.w) (h' : a.bounds.h = b.bounds.h) :
    a = b ↔ a.data = b.data := by
  obtain ⟨⟨aw, ah⟩, ad⟩ := a
  obtain ⟨⟨bw, bh⟩, bd⟩ := b
  simp_all

/-- Complete description of `image_compare`. -/
theorem imageCompare_full {a b : Image} (wa : a.Full) (wb : b.Full) :
    ∃ c, imageCompare a b = .ok c ∧ imageCompare b a = .ok (-c) ∧ (c = -1 ∨ c = 0 ∨ c = 1) ∧
      (c = 0 ↔ a = b) ∧ (c < 0 ↔ PictureLt a b) := by
  rcases Nat.lt_trichotomy a.bounds.w b.bounds.w with h | h | h
  · refine ⟨-1, ?_, ?_, by simp, ?_, ?_⟩
    · simp [imageCompare, h]
    · simp [imageCompare, h, Nat.not_lt_of_lt h]
    · exact ⟨fun e => by simp at e, fun e => by subst e; omega⟩
    · simp [PictureLt, h]
  · rcases Nat.lt_trichotomy a.bounds.h b.bounds.h with h' | h' | h'
    · refine ⟨-1, ?_, ?_, by simp, ?_, ?_⟩
      · simp [imageCompare, h, h']
      · simp [imageCompare, h, h', Nat.not_lt_of_lt h']
      · exact ⟨fun e => by simp at e, fun e => by subst e; omega⟩
      · simp [PictureLt, h, h']
    · rcases imageCompare_same wa wb h h' with ⟨h1, h2⟩ | ⟨k, p, q, hd, h1⟩
      · rcases imageCompare_same wb wa h.symm h'.symm with ⟨h3, h4⟩ | ⟨k, p, q, hd, h3⟩
        · refine ⟨0, h1, by simpa using h3, by simp, ?_, ?_⟩
          · simp [image_eq_iff h h', h2]
          · simp only [Int.lt_irrefl, false_iff]
            rintro (hl | ⟨_, hl | ⟨_, k, p, q, _, hp, hq, hl⟩⟩)
            · omega
            · omega
            · rw [h2, hq] at hp; simp_all
        · exfalso
          obtain ⟨_, hp, hq, hne⟩ := hd
          rw [h2, hp] at hq; simp_all
      · rcases imageCompare_same wb wa h.symm h'.symm with ⟨h3, h4⟩ | ⟨k', p', q', hd', h3⟩
        · exfalso
          obtain ⟨_, hp, hq, hne⟩ := hd
          rw [h4, hp] at hq; simp_all
        · obtain ⟨rfl, rfl, rfl⟩ := hd.symm.unique hd'
          have hne : schar p ≠ schar q := fun e => hd.2.2.2 (schar_inj e)
          have hns : ¬ a.data = b.data := by
            intro e
            obtain ⟨_, hp, hq, hn⟩ := hd
            rw [e, hq] at hp; simp_all
          refine ⟨_, h1, ?_, ?_, ?_, ?_⟩
          · rw [h3]
            congr 1
            split <;> split <;> omega
          · split <;> simp
          · rw [image_eq_iff h h']
            constructor
            · intro e; split at e <;> simp at e
            · intro e; exact absurd e hns
          · constructor
            · intro hl
              right; refine ⟨h, Or.inr ⟨h', k, p, q, hd.1, hd.2.1, hd.2.2.1, ?_⟩⟩
              by_cases hs : schar p < schar q
              · exact hs
              · rw [if_neg hs] at hl; omega
            · rintro (hl | ⟨_, hl | ⟨_, k'', p'', q'', hj, hp, hq, hl⟩⟩)
              · omega
              · omega
              · have : FirstDiff a b k'' p'' q'' := ⟨hj, hp, hq, by rintro rfl; omega⟩
                obtain ⟨rfl, rfl, rfl⟩ := hd.unique this
                rw [if_pos hl]; decide
    · refine ⟨1, ?_, ?_, by simp, ?_, ?_⟩
      · simp [imageCompare, h, h', Nat.not_lt_of_lt h']
      · simp [imageCompare, h, h']
      · exact ⟨fun e => by simp at e, fun e => by subst e; omega⟩
      · simp only [PictureLt]
        constructor
        · omega
        · rintro (hl | ⟨_, hl | ⟨_, _⟩⟩) <;> omega
  · refine ⟨1, ?_, ?_, by simp, ?_, ?_⟩
    · simp [imageCompare, h, Nat.not_lt_of_lt h]
    · simp [imageCompare, h]
    · exact ⟨fun e => by simp at e, fun e => by subst e; omega⟩
    · simp only [PictureLt]
      constructor
      · omega
      · rintro (hl | ⟨_, _⟩) <;> omega

/-- The same in terms of pictures. -/
theorem imageCompare_spec {a b : Image} (wa : a.WF) (wb : b.WF) :
    ∃ c, imageCompare a b = .ok c ∧ imageCompare b a = .ok (-c) ∧ (c = -1 ∨ c = 0 ∨ c = 1) ∧
      (c = 0 ↔ SamePicture a b) ∧ (c < 0 ↔ PictureLt a b) := by
  obtain ⟨c, h1, h2, h3, h4, h5⟩ := imageCompare_full wa.full wb.full
  refine ⟨c, h1, h2, h3, ?_, h5⟩
  rw [h4]
  exact ⟨fun e => by subst e; exact ⟨rfl, rfl, fun _ _ => rfl⟩, Image.ext_pix wa wb⟩

theorem _root_.Ppocr.Spec.PictureLt.trans {a b c : Image} (h : PictureLt a b) (h' : PictureLt b c) :
    PictureLt a c := by
  rcases h with h | ⟨h, h1 | ⟨h1, k, p, q, e1, e2, e3, e4⟩⟩
  · rcases h' with h' | ⟨h', _⟩ <;> (left; omega)
  · rcases h' with h' | ⟨h', h2 | ⟨h2, _⟩⟩
    · left; omega
    · right; exact ⟨by omega, Or.inl (by omega)⟩
    · right; exact ⟨by omega, Or.inl (by omega)⟩
  · rcases h' with h' | ⟨h', h2 | ⟨h2, k', p', q', e1', e2', e3', e4'⟩⟩
    · left; omega
    · right; exact ⟨by omega, Or.inl (by omega)⟩
    · right
      refine ⟨by omega, Or.inr ⟨by omega, ?_⟩⟩
      rcases Nat.lt_trichotomy k k' with hh | hh | hh
      · refine ⟨k, p, q, ?_, e2, ?_, e4⟩
        · intro j hj; rw [e1 j hj, e1' j (by omega)]
        · rw [← e1' k hh, e3]
      · subst hh
        refine ⟨k, p, q', ?_, e2, e3', ?_⟩
        · intro j hj; rw [e1 j hj, e1' j hj]
        · rw [e3] at e2'
          obtain rfl : q = p' := by simpa using e2'
          omega
      · refine ⟨k', p', q', ?_, ?_, e3', e4'⟩
        · intro j hj; rw [e1 j (by omega), e1' j hj]
        · rw [e1 k' hh, e2']

end Ppocr

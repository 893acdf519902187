import Verif.Model.Normalize
import Verif.Spec.Normalize
import Verif.Proofs.ImageCompare
import Verif.Proofs.Trie
import Verif.Proofs.GlyphIO

/-! # Lemmas for C51 -/

namespace Ppocr
open Spec

/-! ## Sorting with a partial comparator -/

theorem sortRes_ok {α : Type} {S : StdSort} {lt : α → α → Res Bool} {l : List α} (R : α → α → Prop)
    (h : ∀ a ∈ l, ∀ b ∈ l, ∃ v, lt a b = .ok v ∧ (v = true ↔ R a b))
    (irr : ∀ a ∈ l, ¬ R a a)
    (tr : ∀ a ∈ l, ∀ b ∈ l, ∀ c ∈ l, R a b → R b c → R a c)
    (inc : ∀ a ∈ l, ∀ b ∈ l, ∀ c ∈ l, ¬ R a b → ¬ R b a → ¬ R b c → ¬ R c b → ¬ R a c ∧ ¬ R c a) :
    ∃ r, sortRes S lt l = .ok r ∧ r.Perm l ∧ r.Pairwise fun a b => ¬ R b a := by
  have hd : ∀ a b : { x // x ∈ l }, (lt a.1 b.1).isTrue = true ↔ R a.1 b.1 := by
    intro a b
    obtain ⟨v, e, hv⟩ := h a.1 a.2 b.1 b.2
    rw [e]; exact hv
  have hf : ∀ a b : { x // x ∈ l }, (lt a.1 b.1).isTrue = false ↔ ¬ R a.1 b.1 := by
    intro a b
    rw [← hd]; simp
  have sw : StrictWeak fun a b : { x // x ∈ l } => (lt a.1 b.1).isTrue := by
    refine ⟨?_, ?_, ?_⟩
    · intro a; rw [hf]; exact irr a.1 a.2
    · intro a b c; rw [hd, hd, hd]; exact tr a.1 a.2 b.1 b.2 c.1 c.2
    · intro a b c; rw [hf, hf, hf, hf, hf, hf]; exact inc a.1 a.2 b.1 b.2 c.1 c.2
  refine ⟨(S.sort (fun a b : { x // x ∈ l } => (lt a.1 b.1).isTrue) l.attach).map Subtype.val, ?_, ?_, ?_⟩
  · unfold sortRes
    rw [if_pos]
    rw [List.all_eq_true]
    intro a ha
    rw [List.all_eq_true]
    intro b hb
    obtain ⟨v, e, _⟩ := h a ha b hb
    rw [e]; rfl
  · have := (S.perm _ l.attach sw).map Subtype.val
    rwa [List.attach_map_subtype_val] at this
  · rw [List.pairwise_map]
    exact (S.sorted _ l.attach sw).imp fun {a b} hab => (hf b a).1 hab

/-! ## Order of images -/

theorem pictureLt_irrefl (a : Image) : ¬ PictureLt a a := by
  rintro (h | ⟨_, h | ⟨_, k, p, q, _, hp, hq, h⟩⟩)
  · omega
  · omega
  · rw [hp, Option.some.injEq] at hq
    subst hq
    omega

theorem pictureLt_trich {a b : Image} (wa : a.Full) (wb : b.Full) (h1 : ¬ PictureLt a b) (h2 : ¬ PictureLt b a) :
    a = b := by
  obtain ⟨c, e1, e2, _, hs, hl⟩ := imageCompare_full wa wb
  obtain ⟨d, f1, _, _, _, gl⟩ := imageCompare_full wb wa
  rw [e2, Res.ok.injEq] at f1
  have hc : ¬ c < 0 := fun h => h1 (hl.1 h)
  have hd : ¬ d < 0 := fun h => h2 (gl.1 h)
  exact hs.1 (by omega)

theorem imageLess_ok {a b : Image} (wa : a.Full) (wb : b.Full) :
    ∃ v, imageLess a b = .ok v ∧ (v = true ↔ PictureLt a b) := by
  obtain ⟨c, e1, _, _, _, hl⟩ := imageCompare_full wa wb
  exact ⟨decide (c < 0), by unfold imageLess; rw [e1]; rfl, by rw [decide_eq_true_iff]; exact hl⟩

theorem image_eq_ok {a b : Image} (wa : a.Full) (wb : b.Full) : a.eq b = .ok (decide (a = b)) := by
  by_cases hw : a.bounds.w = b.bounds.w
  · by_cases hh : a.bounds.h = b.bounds.h
    · have hla : a.data.length = umul a.bounds.w a.bounds.h := wa
      have hlb : b.data.length = umul b.bounds.w b.bounds.h := wb
      rw [← hw, ← hh] at hlb
      unfold Image.eq
      rw [if_pos hw, if_pos hh, equalN_ok _ _ _ _ (by omega) (by omega), ← hla]
      simp [image_eq_iff hw hh, List.take_of_length_le (Nat.le_of_eq (hlb.trans hla.symm))]
    · have : a ≠ b := fun h => hh (by rw [h])
      simp [Image.eq, hw, hh, this]
  · have : a ≠ b := fun h => hw (by rw [h])
    simp [Image.eq, hw, this]

/-- Sorted glyphs. -/
abbrev ImgSorted (l : List LGlyph) : Prop := l.Pairwise fun a b => ¬ PictureLt b.img a.img

theorem pictureLt_of_lt_of_le {a b c : Image} (wb : b.Full) (wc : c.Full) (h : PictureLt a b) (h2 : ¬ PictureLt c b) :
    PictureLt a c := by
  by_cases hbc : PictureLt b c
  · exact h.trans hbc
  · rw [← pictureLt_trich wb wc hbc h2]; exact h

/-! ## Order of views -/

theorem viewLt_total {a b : LView} (h1 : viewLt a b = false) (h2 : viewLt b a = false) : a = b := by
  obtain ⟨aw, af, ai⟩ := a
  obtain ⟨bw, bf, bi⟩ := b
  unfold viewLt at h1 h2
  by_cases hw : aw = bw
  · subst hw
    by_cases hf : af = bf
    · subst hf
      simp only [ne_eq, not_true_eq_false, ↓reduceIte, decide_eq_false_iff_not] at h1 h2
      have : ai = bi := by omega
      rw [this]
    · simp only [ne_eq, not_true_eq_false, ↓reduceIte, hf, not_false_eq_true, Ne.symm hf] at h1 h2
      exact absurd (wordLt_total _ _ h1 h2) hf
  · simp only [ne_eq] at h1 h2
    rw [if_pos hw] at h1
    rw [if_pos (fun h => hw h.symm)] at h2
    exact absurd (wordLt_total _ _ h1 h2) hw

theorem viewLt_irrefl (a : LView) : viewLt a a = false := by simp [viewLt]

theorem viewLt_iff {a b : LView} : viewLt a b = true ↔ wordLt a.word b.word = true ∨
    (a.word = b.word ∧ (wordLt a.font b.font = true ∨ (a.font = b.font ∧ a.info < b.info))) := by
  unfold viewLt
  by_cases hw : a.word = b.word
  · by_cases hf : a.font = b.font
    · simp [hw, hf, wordLt_irrefl]
    · simp [hw, hf, wordLt_irrefl]
  · simp [hw]

theorem viewLt_trans {a b c : LView} (h1 : viewLt a b = true) (h2 : viewLt b c = true) : viewLt a c = true := by
  rw [viewLt_iff] at *
  rcases h1 with h1 | ⟨h1, h1'⟩ <;> rcases h2 with h2 | ⟨h2, h2'⟩
  · exact .inl (wordLt_trans _ _ _ h1 h2)
  · exact .inl (h2 ▸ h1)
  · exact .inl (h1 ▸ h2)
  · refine .inr ⟨h1.trans h2, ?_⟩
    rcases h1' with h1 | ⟨h1, h1'⟩ <;> rcases h2' with h2 | ⟨h2, h2'⟩
    · exact .inl (wordLt_trans _ _ _ h1 h2)
    · exact .inl (h2 ▸ h1)
    · exact .inl (h1 ▸ h2)
    · exact .inr ⟨h1.trans h2, by omega⟩

theorem viewLt_strictWeak : StrictWeak viewLt where
  irrefl := viewLt_irrefl
  trans _ _ _ := viewLt_trans
  incomp a b c h1 h2 h3 h4 := by
    have := viewLt_total h1 h2
    have := viewLt_total h3 h4
    subst_vars
    exact ⟨viewLt_irrefl _, viewLt_irrefl _⟩

/-- `std::unique` with `==` keeps a sublist with the same elements, whatever the order. -/
theorem uniqueFrom_mem {α : Type} [DecidableEq α] : ∀ (l : List α) (a : α),
    ∃ r, uniqueFrom (fun a b => .ok (decide (a = b))) a l = .ok (a :: r) ∧ r.Sublist l ∧
      ∀ w, w ∈ a :: r ↔ w ∈ a :: l
  | [], a => ⟨[], rfl, by simp, fun _ => Iff.rfl⟩
  | b :: l, a => by
    rw [uniqueFrom, Res.ok_bind]
    by_cases e : a = b
    · subst e
      rw [if_pos (by simp)]
      obtain ⟨r, e1, e2, e3⟩ := uniqueFrom_mem l a
      exact ⟨r, e1, e2.cons _, fun w => by rw [e3]; simp⟩
    · rw [if_neg (by simpa using e)]
      obtain ⟨r, e1, e2, e3⟩ := uniqueFrom_mem l b
      rw [e1, Res.ok_bind]
      exact ⟨b :: r, rfl, e2.cons_cons _, fun w => by rw [List.mem_cons, e3, List.mem_cons (b := a)]⟩

theorem uniqueBy_mem {α : Type} [DecidableEq α] (l : List α) :
    ∃ r, uniqueBy (fun a b => .ok (decide (a = b))) l = .ok r ∧ r.Sublist l ∧ ∀ w, w ∈ r ↔ w ∈ l := by
  cases l with
  | nil => exact ⟨[], rfl, by simp, fun w => Iff.rfl⟩
  | cons a l =>
    obtain ⟨r, e1, e2, e3⟩ := uniqueFrom_mem l a
    exact ⟨a :: r, e1, e2.cons_cons _, e3⟩

/-! ## Merging -/

theorem merged_group {i : Image} {grp rest out : List LGlyph} {vs : List LView} (h : Merged rest out)
    (hne : grp ≠ []) (hi : ∀ g ∈ grp, g.img = i) (hlt : ∀ g ∈ rest, PictureLt i g.img)
    (hv : ∀ v, v ∈ vs ↔ ∃ g ∈ grp, v ∈ g.views) : Merged (grp ++ rest) (⟨i, vs⟩ :: out) := by
  have hlt' : ∀ g ∈ out, PictureLt i g.img := by
    intro g hg
    obtain ⟨g', hg', e⟩ := (h.images g.img).1 ⟨g, hg, rfl⟩
    rw [← e]; exact hlt g' hg'
  refine ⟨List.pairwise_cons.2 ⟨hlt', h.order⟩, ?_, ?_⟩
  · intro j
    constructor
    · rintro ⟨g, hg, rfl⟩
      rcases List.mem_cons.1 hg with rfl | hg
      · obtain ⟨x, hx⟩ := List.exists_mem_of_ne_nil _ hne
        exact ⟨x, List.mem_append_left _ hx, hi x hx⟩
      · obtain ⟨g', hg', e⟩ := (h.images g.img).1 ⟨g, hg, rfl⟩
        exact ⟨g', List.mem_append_right _ hg', e⟩
    · rintro ⟨g, hg, rfl⟩
      rcases List.mem_append.1 hg with hg | hg
      · exact ⟨_, List.mem_cons_self, (hi g hg).symm⟩
      · obtain ⟨g', hg', e⟩ := (h.images g.img).2 ⟨g, hg, rfl⟩
        exact ⟨g', List.mem_cons_of_mem _ hg', e⟩
  · intro g hg v
    rcases List.mem_cons.1 hg with rfl | hg
    · rw [hv]
      constructor
      · rintro ⟨x, hx, hvx⟩
        exact ⟨x, List.mem_append_left _ hx, hi x hx, hvx⟩
      · rintro ⟨x, hx, e, hvx⟩
        rcases List.mem_append.1 hx with hx | hx
        · exact ⟨x, hx, hvx⟩
        · have := hlt x hx
          rw [e] at this
          exact absurd this (pictureLt_irrefl _)
    · rw [h.views g hg]
      constructor
      · rintro ⟨x, hx, e, hvx⟩
        exact ⟨x, List.mem_append_right _ hx, e, hvx⟩
      · rintro ⟨x, hx, e, hvx⟩
        rcases List.mem_append.1 hx with hx | hx
        · have := hlt' g hg
          rw [← e, hi x hx] at this
          exact absurd this (pictureLt_irrefl _)
        · exact ⟨x, hx, e, hvx⟩

/-- The number of views. -/
def viewCount (gs : List LGlyph) : Nat := (gs.flatMap LGlyph.views).length

/-- Where the glyphs with the image of the first end. -/
theorem mergePos_ok {g : LGlyph} {rest : List LGlyph} (wg : g.img.Full) (wr : ∀ x ∈ rest, x.img.Full)
    (hs1 : ∀ x ∈ rest, ¬ PictureLt x.img g.img) (hs2 : ImgSorted rest) :
    ∃ pos, partitionPoint (fun k => do
        let x ← rd rest k
        let b ← imageLess g.img x.img
        return !b) (rest.length + 1) 0 rest.length = .ok pos ∧
      (∀ x ∈ rest.take pos, x.img = g.img) ∧ ∀ x ∈ rest.drop pos, PictureLt g.img x.img := by
  have hq : ∀ k (hk : k < rest.length), ∃ v, imageLess g.img rest[k].img = .ok v ∧
      (v = true ↔ PictureLt g.img rest[k].img) := fun k hk => imageLess_ok wg (wr _ (List.getElem_mem hk))
  have hmono : ∀ (j k : Nat) (hj : j ≤ k) (hk : k < rest.length), PictureLt g.img (rest[j]'(by omega)).img →
      PictureLt g.img rest[k].img := by
    intro j k hj hk h
    rcases Nat.lt_or_eq_of_le hj with hj | rfl
    · exact pictureLt_of_lt_of_le (wr _ (List.getElem_mem _)) (wr _ (List.getElem_mem _)) h
        (List.pairwise_iff_getElem.1 hs2 j k _ hk hj)
    · exact h
  obtain ⟨pos, ep, _, hpl, hp1, hp2⟩ := partitionPoint_ok
    (fun k => do
      let x ← rd rest k
      let b ← imageLess g.img x.img
      return !b)
    (fun k => !(imageLess g.img (rest.getD k g).img).isTrue) (rest.length + 1) 0 rest.length (by omega)
    (by
      intro k _ hk
      simp only [Nat.zero_add] at hk
      obtain ⟨v, e, _⟩ := hq k hk
      rw [rd_of_lt hk, Res.ok_bind, e, List.getD_eq_getElem?_getD, List.getElem?_eq_getElem hk, Option.getD_some, e]
      rfl)
    (by
      intro j k _ hjk hk
      simp only [Nat.zero_add] at hk
      have hj : j < rest.length := by omega
      rw [List.getD_eq_getElem?_getD, List.getElem?_eq_getElem hk, Option.getD_some, List.getD_eq_getElem?_getD,
        List.getElem?_eq_getElem hj, Option.getD_some]
      obtain ⟨v, e, hv⟩ := hq k hk
      obtain ⟨u, e', hu⟩ := hq j hj
      rw [e, e']
      simp only [Res.isTrue, Bool.not_eq_true']
      intro h
      cases u with
      | false => rfl
      | true =>
        rw [hv.2 (hmono j k hjk hk (hu.1 rfl))] at h
        exact absurd h (by simp))
  simp only [Nat.zero_add] at hpl hp2
  have hgrp : ∀ x ∈ rest.take pos, x.img = g.img := by
    intro x hx
    obtain ⟨k, hk, rfl⟩ := List.getElem_of_mem hx
    rw [List.length_take] at hk
    rw [List.getElem_take]
    have hk' : k < rest.length := by omega
    obtain ⟨v, e, hv⟩ := hq k hk'
    have := hp1 k (by omega) (by omega)
    rw [List.getD_eq_getElem?_getD, List.getElem?_eq_getElem hk', Option.getD_some, e] at this
    simp only [Res.isTrue, Bool.not_eq_true'] at this
    subst this
    exact pictureLt_trich (wr _ (List.getElem_mem _)) wg (hs1 _ (List.getElem_mem hk')) (fun h => by
      have := hv.2 h
      exact absurd this (by simp))
  have hrest : ∀ x ∈ rest.drop pos, PictureLt g.img x.img := by
    intro x hx
    obtain ⟨k, hk, rfl⟩ := List.getElem_of_mem hx
    rw [List.length_drop] at hk
    rw [List.getElem_drop]
    have hk' : pos + k < rest.length := by omega
    obtain ⟨v, e, hv⟩ := hq _ hk'
    have := hp2 (pos + k) (by omega) hk'
    rw [List.getD_eq_getElem?_getD, List.getElem?_eq_getElem hk', Option.getD_some, e] at this
    simp only [Res.isTrue, Bool.not_eq_false'] at this
    exact hv.1 this
  exact ⟨pos, ep, hgrp, hrest⟩

theorem mergeLoop_ok (S : StdSort) : ∀ (fuel : Nat) (l : List LGlyph), l.length ≤ fuel → (∀ g ∈ l, g.img.Full) →
    ImgSorted l → ∃ out, mergeLoop S fuel l = .ok out ∧ Merged l out ∧ ∀ g ∈ out, g.views.length ≤ viewCount l
  | fuel, [], _, _, _ => ⟨[], by cases fuel <;> rfl, ⟨by simp, by simp, by simp⟩, by simp⟩
  | 0, _ :: _, h, _, _ => by simp at h
  | fuel + 1, g :: rest, hl, wf, hs => by
    have wg := wf g (by simp)
    have wr : ∀ x ∈ rest, x.img.Full := fun x hx => wf x (by simp [hx])
    have hs' := List.pairwise_cons.1 hs
    obtain ⟨pos, ep, hgrp, hrest⟩ := mergePos_ok wg wr hs'.1 hs'.2
    obtain ⟨vs, ev, hsub, hvm⟩ := uniqueBy_mem
      (S.sort viewLt (g.views ++ (rest.take pos).flatMap LGlyph.views))
    have hperm := S.perm viewLt (g.views ++ (rest.take pos).flatMap LGlyph.views) viewLt_strictWeak
    obtain ⟨out, eo, hm, hc⟩ := mergeLoop_ok S fuel (rest.drop pos) (by
        rw [List.length_drop]; simp only [List.length_cons] at hl; omega)
      (fun x hx => wr x (List.mem_of_mem_drop hx)) (hs'.2.sublist (List.drop_sublist _ _))
    have hsplit : g :: rest = (g :: rest.take pos) ++ rest.drop pos := by
      rw [List.cons_append, List.take_append_drop]
    have hcnt : viewCount (g :: rest) = (g.views ++ (rest.take pos).flatMap LGlyph.views).length +
        viewCount (rest.drop pos) := by
      unfold viewCount
      conv => lhs; rw [hsplit]
      rw [List.flatMap_append, List.length_append, List.flatMap_cons]
    refine ⟨⟨g.img, vs⟩ :: out, ?_, ?_, ?_⟩
    · rw [mergeLoop, ep, Res.ok_bind, ev, Res.ok_bind, eo, Res.ok_bind]
      rfl
    · rw [hsplit]
      refine merged_group hm (by simp) ?_ hrest ?_
      · intro x hx
        rcases List.mem_cons.1 hx with rfl | hx
        · rfl
        · exact hgrp x hx
      · intro v
        rw [hvm, hperm.mem_iff]
        simp
    · intro x hx
      rw [hcnt]
      rcases List.mem_cons.1 hx with rfl | hx
      · have := hsub.length_le
        rw [hperm.length_eq] at this
        exact Nat.le_add_right_of_le this
      · have := hc x hx
        omega

theorem findMerge_ok (S : StdSort) : ∀ (s : List LGlyph) (fuel : Nat), s.length ≤ fuel → (∀ g ∈ s, g.img.Full) →
    ImgSorted s → ∃ k r, adjacentFind (fun a b => a.img.eq b.img) s = .ok k ∧
      mergeLoop S fuel (s.drop k) = .ok r ∧ Merged s (s.take k ++ r) ∧
      ∀ g ∈ s.take k ++ r, g.views.length ≤ viewCount s
  | [], fuel, _, _, _ => ⟨0, [], rfl, by cases fuel <;> rfl, ⟨by simp, by simp, by simp⟩, by simp⟩
  | [a], fuel, _, _, _ => by
    refine ⟨1, [], rfl, by cases fuel <;> rfl, ?_, ?_⟩
    · exact merged_group (grp := [a]) (rest := []) (out := []) (i := a.img) (vs := a.views)
        ⟨by simp, by simp, by simp⟩ (by simp) (by simp) (by simp) (by simp)
    · simp [viewCount]
  | a :: b :: l, fuel, hl, wf, hs => by
    have wa := wf a (by simp)
    have wb := wf b (by simp)
    by_cases e : a.img = b.img
    · obtain ⟨out, eo, hm, hc⟩ := mergeLoop_ok S fuel (a :: b :: l) hl wf hs
      refine ⟨0, out, ?_, by simpa using eo, by simpa using hm, by simpa using hc⟩
      rw [adjacentFind, image_eq_ok wa wb, Res.ok_bind, if_pos (by simpa using e)]
      rfl
    · have hs' := List.pairwise_cons.1 hs
      obtain ⟨k, r, e1, e2, e3, e4⟩ := findMerge_ok S (b :: l) fuel (by simp only [List.length_cons] at hl ⊢; omega)
        (fun g hg => wf g (List.mem_cons_of_mem _ hg)) hs'.2
      have hab : PictureLt a.img b.img := by
        by_cases h : PictureLt a.img b.img
        · exact h
        · exact absurd (pictureLt_trich wa wb h (hs'.1 b (by simp))) e
      refine ⟨k + 1, r, ?_, ?_, ?_, ?_⟩
      · rw [adjacentFind, image_eq_ok wa wb, Res.ok_bind, if_neg (by simpa using e), e1]
        rfl
      · rw [List.drop_succ_cons]; exact e2
      · rw [List.take_succ_cons, List.cons_append]
        refine merged_group (grp := [a]) e3 (by simp) (by simp) ?_ (by simp)
        intro x hx
        rcases List.mem_cons.1 hx with rfl | hx'
        · exact hab
        · exact pictureLt_of_lt_of_le wb (wf x (by simp [hx'])) hab ((List.pairwise_cons.1 hs'.2).1 x hx')
      · intro g hg
        have hc : viewCount (a :: b :: l) = a.views.length + viewCount (b :: l) := by simp [viewCount]
        rw [List.take_succ_cons, List.cons_append] at hg
        rcases List.mem_cons.1 hg with rfl | hg
        · omega
        · have := e4 g hg
          omega

theorem viewCount_perm {a b : List LGlyph} (h : a.Perm b) : viewCount a = viewCount b := by
  unfold viewCount
  exact (h.flatMap_right _).length_eq

theorem merged_perm {a b out : List LGlyph} (h : a.Perm b) (hm : Merged a out) : Merged b out :=
  ⟨hm.order, fun i => by rw [hm.images]; simp only [h.mem_iff], fun g hg v => by
    rw [hm.views g hg]; simp only [h.mem_iff]⟩

theorem normalizeGlyphs_ok (S : StdSort) (gs : List LGlyph) (wf : ∀ g ∈ gs, g.img.Full) :
    ∃ out, normalizeGlyphs S gs = .ok out ∧ Merged gs out ∧ ∀ g ∈ out, g.views.length ≤ viewCount gs := by
  obtain ⟨s, es, hp, hs⟩ := sortRes_ok (S := S) (lt := fun a b => imageLess a.img b.img) (l := gs)
    (fun a b => PictureLt a.img b.img) (fun a ha b hb => imageLess_ok (wf a ha) (wf b hb))
    (fun a _ => pictureLt_irrefl _) (fun _ _ _ _ _ _ h1 h2 => h1.trans h2)
    (by
      intro a ha b hb c hc h1 h2 h3 h4
      have e1 := pictureLt_trich (wf a ha) (wf b hb) h1 h2
      have e2 := pictureLt_trich (wf b hb) (wf c hc) h3 h4
      rw [e1, e2]
      exact ⟨pictureLt_irrefl _, pictureLt_irrefl _⟩)
  obtain ⟨k, r, e1, e2, hm, hc⟩ := findMerge_ok S s s.length (Nat.le_refl _)
    (fun g hg => wf g (hp.mem_iff.1 hg)) hs
  refine ⟨s.take k ++ r, ?_, merged_perm hp hm, ?_⟩
  · unfold normalizeGlyphs
    rw [es, Res.ok_bind, e1, Res.ok_bind, e2, Res.ok_bind]
    rfl
  · intro g hg
    rw [← viewCount_perm hp]
    exact hc g hg

/-! ## Files -/

theorem read_length {s : IS} {n : Nat} (h : (s.read n).2.fail = false) : (s.read n).1.length = n := by
  have h0 := @sentry_false s true
  unfold IS.read at h ⊢
  rcases e : s.sentry true with ⟨s', b⟩
  rw [e] at h0 h
  cases b with
  | false =>
    have := h0 rfl
    simp only [] at h this
    rw [this] at h
    simp at h
  | true =>
    simp only [] at h ⊢
    by_cases hn : n ≤ s'.rest.length
    · rw [if_pos hn]
      simp only [List.length_take]
      omega
    · rw [if_neg hn] at h
      simp at h

theorem imgRead_full {s : IS} {o : Image} (hf : (imgRead s o).2.fail = false) : (imgRead s o).1.Full := by
  unfold imgRead at hf ⊢
  simp only [] at hf ⊢
  by_cases h1 : (boundsRead s ⟨0, 0⟩).2.fail = true
  · rw [if_pos h1] at hf
    simp only [] at hf
    rw [h1] at hf
    simp at hf
  · rw [if_neg h1] at hf ⊢
    by_cases h2 : ((boundsRead s ⟨0, 0⟩).2.bump.read (boundsRead s ⟨0, 0⟩).1.area).2.fail = true
    · rw [if_pos h2] at hf
      simp only [] at hf
      rw [h2] at hf
      simp at hf
    · rw [if_neg h2]
      have := read_length (by simpa using h2)
      unfold Image.Full
      simp only [List.length_map]
      exact this

theorem glyphRead_full {s : IS} {o : LGlyph} (hf : (glyphRead s o).2.fail = false) : (glyphRead s o).1.img.Full := by
  unfold glyphRead at hf ⊢
  simp only [] at hf ⊢
  by_cases h1 : (imgRead s o.img).2.fail = true
  · rw [if_pos h1] at hf
    simp only [] at hf
    rw [h1] at hf
    simp at hf
  · rw [if_neg h1]
    exact imgRead_full (by simpa using h1)

theorem glyphsLoop_full : ∀ (fuel : Nat) (s : IS) (old : List LView) (acc gs : List LGlyph) (s' : IS),
    (∀ g ∈ acc, g.img.Full) → glyphsLoop fuel s old acc = .ok (gs, s') → ∀ g ∈ gs, g.img.Full
  | 0, _, _, _, _, _, _, h => by simp [glyphsLoop] at h
  | fuel + 1, s, old, acc, gs, s', ha, h => by
    rw [glyphsLoop] at h
    by_cases hf : (glyphRead s ⟨⟨⟨0, 0⟩, []⟩, old⟩).2.fail = true
    · rw [if_pos hf] at h
      injection h with h
      injection h with h _
      exact h ▸ ha
    · rw [if_neg hf] at h
      refine glyphsLoop_full fuel _ _ _ gs s' ?_ h
      intro g hg
      rcases List.mem_append.1 hg with hg | hg
      · exact ha g hg
      · rw [List.mem_singleton.1 hg]
        exact glyphRead_full (by simpa using hf)

theorem readGlyphFiles_total : ∀ (files : List (Option (List Nat))) (gs : List LGlyph), (∀ g ∈ gs, g.img.Full) →
    ∃ r, readGlyphFiles files gs = .ok r ∧ (∀ e, r = .error e → e = 2 ∨ e = 5) ∧
      ∀ l, r = .ok l → ∀ g ∈ l, g.img.Full
  | [], gs, h => ⟨_, rfl, by simp, fun l e => by injection e with e; exact e ▸ h⟩
  | none :: _, gs, h => ⟨_, rfl, fun e h => by injection h with h; exact .inl h.symm, by simp⟩
  | some t :: fs, gs, h => by
    obtain ⟨l, s', e, _⟩ := glyphsLoop_total ((IS.of t).rest.length + 1) (IS.of t) [] gs (by omega)
    have e' : glyphsRead (IS.of t) gs = .ok (gs ++ l, s') := e
    rw [readGlyphFiles, e', Res.ok_bind]
    cases hs : s'.eof with
    | true =>
      simp only [if_true]
      exact readGlyphFiles_total fs (gs ++ l) (glyphsLoop_full _ _ _ _ _ _ h e)
    | false =>
      exact ⟨_, rfl, fun e h => by injection h with h; exact .inr h.symm, by simp⟩

theorem glyphsWrite_full : ∀ {gs : List LGlyph}, (∀ g ∈ gs, g.img.Full) → ∃ t, glyphsWrite gs = .ok t
  | [], _ => ⟨[], rfl⟩
  | g :: gs, h => by
    obtain ⟨t, ht⟩ := glyphsWrite_full (gs := gs) fun u hu => h u (by simp [hu])
    have : g.img.bounds.area ≤ g.img.data.length := Nat.le_of_eq (h g (by simp)).symm
    rw [glyphsWrite, glyphWrite, imgWrite, if_pos this, ht]
    exact ⟨_, rfl⟩

theorem merged_full {gs out : List LGlyph} (hm : Merged gs out) (h : ∀ g ∈ gs, g.img.Full) :
    ∀ g ∈ out, g.img.Full := by
  intro g hg
  obtain ⟨g', hg', e⟩ := (hm.images g.img).1 ⟨g, hg, rfl⟩
  rw [← e]; exact h g' hg'

theorem merged_good {gs out : List LGlyph} (hm : Merged gs out) (h : ∀ g ∈ gs, g.Good)
    (hc : ∀ g ∈ out, g.views.length ≤ maxU) : ∀ g ∈ out, g.Good := by
  intro g hg
  obtain ⟨g', hg', e⟩ := (hm.images g.img).1 ⟨g, hg, rfl⟩
  refine ⟨e ▸ (h g' hg').img, ?_, hc g hg⟩
  intro v hv
  obtain ⟨x, hx, _, hvx⟩ := (hm.views g hg v).1 hv
  exact (h x hx).views v hvx

theorem readGlyphFiles_write : ∀ (ins : List (List LGlyph)) (texts : List (List Nat)) (acc : List LGlyph),
    (∀ gs ∈ ins, ∀ g ∈ gs, g.Good) → ins.map glyphsWrite = texts.map Res.ok →
    readGlyphFiles (texts.map some) acc = .ok (.ok (acc ++ ins.flatten))
  | [], [], acc, _, _ => by simp [readGlyphFiles]
  | [], _ :: _, _, _, h => by simp at h
  | _ :: _, [], _, _, h => by simp at h
  | gs :: ins, t :: texts, acc, hg, h => by
    simp only [List.map_cons, List.cons.injEq] at h
    obtain ⟨t', ht', hl⟩ := glyphsWrite_total (hg gs (by simp))
    rw [h.1, Res.ok.injEq] at ht'
    subst ht'
    have e : glyphsRead (IS.of t) acc = .ok (acc ++ gs, ⟨[], true, true, true⟩) :=
      glyphsLoop_write gs t [] (t.length + 1) [] acc (hg gs (by simp)) h.1 (by simp) (by omega)
    rw [List.map_cons, readGlyphFiles, e, Res.ok_bind]
    simp only [if_true]
    rw [readGlyphFiles_write ins texts _ (fun x hx => hg x (by simp [hx])) h.2]
    simp

end Ppocr

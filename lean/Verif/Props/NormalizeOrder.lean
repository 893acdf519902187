import Verif.Proofs.NormalizeOrder

/-! # C71: the glyphs written by `normalize_glyphs` do not depend on an order -/

namespace Ppocr.Props
open Ppocr Spec

/-- **C71**: glyphs given in another order, sorted by another algorithm, give the same result. -/
theorem C71_order (S S' : StdSort) (gs gs' : List LGlyph) (h : gs.Perm gs') (hf : ∀ g ∈ gs, g.img.Full) :
    normalizeGlyphs S gs = normalizeGlyphs S' gs' :=
  normalizeGlyphs_perm S S' h hf

/-- The result normalised once more is the same. -/
theorem C71_again (S S' : StdSort) (gs out : List LGlyph) (hf : ∀ g ∈ gs, g.img.Full)
    (h : normalizeGlyphs S gs = .ok out) : normalizeGlyphs S' out = .ok out := by
  obtain ⟨out', e, hm, _⟩ := normalizeGlyphs_ok S gs hf
  rw [e] at h
  cases h
  exact normalizeGlyphs_distinct S' (merged_full hm hf) hm.order (List.Perm.refl _)

/-- Every glyph written is a glyph that was read, unchanged and the only one with its image, or has its views in strictly
increasing order. -/
theorem C71_views (S : StdSort) (gs out : List LGlyph) (hf : ∀ g ∈ gs, g.img.Full) (h : normalizeGlyphs S gs = .ok out) :
    ∀ g ∈ out, (g ∈ gs ∧ ∀ g' ∈ gs, g'.img = g.img → g' = g) ∨ g.views.Pairwise fun a b => viewLt a b = true := by
  obtain ⟨s, e, hp, hs⟩ := imgSort_ok S gs hf
  unfold normalizeGlyphs at h
  rw [e, Res.ok_bind, Res.bind_eq_ok] at h
  obtain ⟨k, ek, h⟩ := h
  rw [Res.bind_eq_ok] at h
  obtain ⟨r, er, h⟩ := h
  cases h
  intro g hg
  rcases List.mem_append.1 hg with hg | hg
  · refine .inl ⟨hp.mem_iff.1 (List.mem_of_mem_take hg), ?_⟩
    have key : ∀ (s : List LGlyph) (k : Nat), (∀ g ∈ s, g.img.Full) → ImgSorted s →
        adjacentFind (fun a b => a.img.eq b.img) s = .ok k → ∀ g ∈ s.take k, ∀ g' ∈ s, g'.img = g.img → g' = g := by
      intro s
      induction s with
      | nil => intro k _ _ _ g hg; simp at hg
      | cons a l ih =>
        intro k wf hs hk
        cases l with
        | nil =>
          intro g hg g' hg' _
          have := List.mem_of_mem_take hg
          simp only [List.mem_singleton] at this hg'
          rw [this, hg']
        | cons b l =>
          have wa := wf a (by simp)
          have wb := wf b (by simp)
          have p := List.pairwise_cons.1 hs
          rw [adjacentFind, image_eq_ok wa wb, Res.ok_bind] at hk
          by_cases he : a.img = b.img
          · rw [if_pos (by simpa using he)] at hk
            cases hk
            intro g hg
            simp at hg
          · rw [if_neg (by simpa using he), Res.bind_eq_ok] at hk
            obtain ⟨k', ek, hk⟩ := hk
            cases hk
            have hab : PictureLt a.img b.img := by
              by_cases h : PictureLt a.img b.img
              · exact h
              · exact absurd (pictureLt_trich wa wb h (p.1 b (by simp))) he
            have hlt : ∀ x ∈ b :: l, PictureLt a.img x.img := by
              intro x hx
              rcases List.mem_cons.1 hx with rfl | hx'
              · exact hab
              · exact pictureLt_of_lt_of_le wb (wf x (by simp [hx'])) hab ((List.pairwise_cons.1 p.2).1 x hx')
            intro g hg g' hg' hi
            rw [List.take_succ_cons] at hg
            rcases List.mem_cons.1 hg with rfl | hk
            · rcases List.mem_cons.1 hg' with rfl | hg'
              · rfl
              · have := hlt g' hg'
                rw [hi] at this
                exact absurd this (pictureLt_irrefl _)
            · rcases List.mem_cons.1 hg' with rfl | hg'
              · have := hlt g (List.mem_of_mem_take hk)
                rw [hi] at this
                exact absurd this (pictureLt_irrefl _)
              · exact ih k' (fun x hx => wf x (List.mem_cons_of_mem _ hx)) p.2 ek g hk g' hg' hi
    intro g' hg' hi
    exact key s k (fun g hg => hf g (hp.mem_iff.1 hg)) hs ek g hg g' (hp.mem_iff.2 hg') hi
  · exact .inr (mergeLoop_views S _ _ _ er g hg)

/-- The program on any files: the same bytes and exit status with every sorting algorithm. -/
theorem C71_program (S S' : StdSort) (files : List (Option (List Nat))) : normalizeMain S files = normalizeMain S' files := by
  obtain ⟨r, e, _, hl⟩ := readGlyphFiles_total files [] (by simp)
  unfold normalizeMain
  by_cases hne : files = []
  · rw [if_pos hne, if_pos hne]
  · rw [if_neg hne, if_neg hne, e, Res.ok_bind, Res.ok_bind]
    cases r with
    | error c => rfl
    | ok gs =>
      simp only []
      rw [normalizeGlyphs_perm S S' (List.Perm.refl gs) (hl gs rfl)]

/-- The order of the files on the command line does not matter either, if they are accepted. Nothing is assumed about their
contents. -/
theorem C71_files (S S' : StdSort) (files files' : List (Option (List Nat))) (t : List Nat) (h : files.Perm files')
    (ht : normalizeMain S files = .ok (0, t)) : normalizeMain S' files' = .ok (0, t) := by
  obtain ⟨r, e, he, hl⟩ := readGlyphFiles_total files [] (by simp)
  unfold normalizeMain at ht ⊢
  by_cases hne : files = []
  · rw [if_pos hne] at ht
    simp at ht
  · have hne' : files' ≠ [] := by
      intro h'
      subst h'
      exact hne (List.perm_nil.1 h)
    rw [if_neg hne, e, Res.ok_bind] at ht
    cases r with
    | error c =>
      simp only [Res.pure_eq, Res.ok.injEq, Prod.mk.injEq] at ht
      rcases he c rfl with h | h <;> omega
    | ok gs =>
      simp only [] at ht
      obtain ⟨ls, e1, e2⟩ := (readGlyphFiles_iff files [] gs).1 e
      obtain ⟨ls', e1', hp⟩ := perm_somes (h.map fileGlyphs) e1
      have e' := (readGlyphFiles_iff files' [] ls'.flatten).2 ⟨ls', e1', by simp⟩
      rw [if_neg hne', e', Res.ok_bind]
      simp only []
      rw [List.nil_append] at e2
      subst e2
      rw [← normalizeGlyphs_perm S S' hp.flatten (hl _ rfl)]
      exact ht

/-- A file that the program wrote from files of the tools is written again byte for byte. -/
theorem C71_file_again (S S' : StdSort) (ins : List (List LGlyph)) (texts : List (List Nat)) (hne : texts ≠ [])
    (hg : ∀ gs ∈ ins, ∀ g ∈ gs, g.Good) (ht : ins.map glyphsWrite = texts.map Res.ok)
    (hc : (ins.flatten.flatMap LGlyph.views).length ≤ maxU) :
    ∃ t, normalizeMain S (texts.map some) = .ok (0, t) ∧ normalizeMain S' [some t] = .ok (0, t) := by
  have hg' : ∀ g ∈ ins.flatten, g.Good := by
    intro g hg'
    obtain ⟨l, hl, h⟩ := List.mem_flatten.1 hg'
    exact hg l hl g h
  obtain ⟨out, eo, hm, hv⟩ := normalizeGlyphs_ok S ins.flatten fun g h => (hg' g h).img.full
  have hgo := merged_good hm hg' fun g h => Nat.le_trans (hv g h) hc
  obtain ⟨t, et, hl⟩ := glyphsWrite_total hgo
  refine ⟨t, ?_, ?_⟩
  · unfold normalizeMain
    rw [if_neg (by simpa using hne), readGlyphFiles_write ins texts [] hg ht, Res.ok_bind]
    simp only [List.nil_append]
    rw [eo, Res.ok_bind, et, Res.ok_bind]
    rfl
  · unfold normalizeMain
    have := readGlyphFiles_write [out] [t] [] (by simpa using hgo) (by simpa using et)
    rw [if_neg (by simp)]
    rw [List.map_cons, List.map_nil] at this
    rw [this, Res.ok_bind]
    simp only [List.nil_append, List.flatten_cons, List.flatten_nil, List.append_nil]
    rw [normalizeGlyphs_distinct S' (fun g h => (hgo g h).img.full) hm.order (List.Perm.refl _), Res.ok_bind, et, Res.ok_bind]
    rfl

/-- A sort that reverses the elements that are equivalent. -/
def reversingSort : StdSort where
  sort lt l := insertionSort.sort lt l.reverse
  perm lt _ h := (insertionSort.perm lt _ h).trans (List.reverse_perm _)
  sorted lt _ h := insertionSort.sorted lt _ h

/-- Two glyphs of one image in two files, in both orders and with two sorts; the two sorts do differ. -/
example : normalizeMain insertionSort
      [some ("1 1 x\n1\nb f 7\n".toList.map Char.toNat), some ("1 1 x\n2\na f 7\nb f 7\n".toList.map Char.toNat)] =
      .ok (0, "1 1 x\n2\na f 7\nb f 7\n".toList.map Char.toNat) ∧
    normalizeMain reversingSort
      [some ("1 1 x\n2\na f 7\nb f 7\n".toList.map Char.toNat), some ("1 1 x\n1\nb f 7\n".toList.map Char.toNat)] =
      .ok (0, "1 1 x\n2\na f 7\nb f 7\n".toList.map Char.toNat) ∧
    insertionSort.sort (fun _ _ : Nat => false) [1, 2] ≠ reversingSort.sort (fun _ _ : Nat => false) [1, 2] := by
  decide +kernel

/-- With a file that is not accepted the exit status depends on the order of the files. -/
example : normalizeMain insertionSort [none, some [97]] = .ok (2, []) ∧
    normalizeMain insertionSort [some [97], none] = .ok (5, []) := by decide +kernel

end Ppocr.Props

import Verif.Proofs.Normalize

/-! # Lemmas for C71: the order of the glyphs does not matter -/

namespace Ppocr
open Spec

theorem sort_unique {α : Type} {lt : α → α → Bool} (sw : StrictWeak lt)
    (tot : ∀ a b, lt a b = false → lt b a = false → a = b) (S S' : StdSort) {l l' : List α} (h : l.Perm l') :
    S.sort lt l = S'.sort lt l' :=
  List.Perm.eq_of_pairwise (le := fun a b => lt b a = false) (fun a b _ _ h1 h2 => tot a b h2 h1)
    (S.sorted lt l sw) (S'.sorted lt l' sw) ((S.perm lt l sw).trans (h.trans (S'.perm lt l' sw).symm))

theorem imgs_eq {s s' : List LGlyph} (h : s.Perm s') (wf : ∀ g ∈ s, g.img.Full) (hs : ImgSorted s) (hs' : ImgSorted s') :
    s.map LGlyph.img = s'.map LGlyph.img := by
  refine List.Perm.eq_of_pairwise (le := fun a b => ¬ PictureLt b a) ?_ (List.pairwise_map.2 hs) (List.pairwise_map.2 hs')
    (h.map _)
  intro a b ha hb h1 h2
  obtain ⟨g, hg, rfl⟩ := List.mem_map.1 ha
  obtain ⟨g', hg', rfl⟩ := List.mem_map.1 hb
  exact pictureLt_trich (wf g hg) (wf g' (h.mem_iff.2 hg')) h2 h1

/-- The glyphs of the first image. -/
theorem group_filter {g : LGlyph} {rest : List LGlyph} {pos : Nat} (h1 : ∀ x ∈ rest.take pos, x.img = g.img)
    (h2 : ∀ x ∈ rest.drop pos, PictureLt g.img x.img) :
    g :: rest.take pos = (g :: rest).filter (fun x => decide (x.img = g.img)) ∧
      rest.drop pos = (g :: rest).filter (fun x => !decide (x.img = g.img)) := by
  have e : g :: rest = (g :: rest.take pos) ++ rest.drop pos := by rw [List.cons_append, List.take_append_drop]
  have ne : ∀ x ∈ rest.drop pos, x.img ≠ g.img := by
    intro x hx he
    have := h2 x hx
    rw [he] at this
    exact pictureLt_irrefl _ this
  have f1 : (rest.drop pos).filter (fun x => decide (x.img = g.img)) = [] := by
    rw [List.filter_eq_nil_iff]
    intro x hx
    simpa using ne x hx
  have f2 : (rest.drop pos).filter (fun x => !decide (x.img = g.img)) = rest.drop pos := by
    rw [List.filter_eq_self]
    intro x hx
    simpa using ne x hx
  have f3 : (g :: rest.take pos).filter (fun x => decide (x.img = g.img)) = g :: rest.take pos := by
    rw [List.filter_eq_self]
    intro x hx
    rcases List.mem_cons.1 hx with rfl | hx
    · simp
    · simpa using h1 x hx
  have f4 : (g :: rest.take pos).filter (fun x => !decide (x.img = g.img)) = [] := by
    rw [List.filter_eq_nil_iff]
    intro x hx
    rcases List.mem_cons.1 hx with rfl | hx
    · simp
    · simpa using h1 x hx
  constructor
  · rw [e, List.filter_append, f1, f3, List.append_nil]
  · rw [e, List.filter_append, f2, f4, List.nil_append]

theorem mergeLoop_perm (S S' : StdSort) : ∀ (fuel : Nat) (l l' : List LGlyph), l.length ≤ fuel → l.Perm l' →
    (∀ g ∈ l, g.img.Full) → ImgSorted l → ImgSorted l' → mergeLoop S fuel l = mergeLoop S' fuel l'
  | fuel, [], l', _, hp, _, _, _ => by
    rw [List.nil_perm.1 hp]
    cases fuel <;> rfl
  | 0, _ :: _, _, h, _, _, _, _ => by simp at h
  | fuel + 1, g :: rest, [], _, hp, _, _, _ => by simp at hp
  | fuel + 1, g :: rest, g' :: rest', hl, hp, wf, hs, hs' => by
    have himg := imgs_eq hp wf hs hs'
    rw [List.map_cons, List.map_cons] at himg
    injection himg with hi hr
    have wf' : ∀ x ∈ g' :: rest', x.img.Full := fun x hx => wf x (hp.mem_iff.2 hx)
    have p1 := List.pairwise_cons.1 hs
    have p2 := List.pairwise_cons.1 hs'
    obtain ⟨pos, e1, a1, b1⟩ := mergePos_ok (wf g (by simp)) (fun x hx => wf x (by simp [hx])) p1.1 p1.2
    obtain ⟨pos', e2, a2, b2⟩ := mergePos_ok (wf' g' (by simp)) (fun x hx => wf' x (by simp [hx])) p2.1 p2.2
    obtain ⟨f1, f2⟩ := group_filter a1 b1
    obtain ⟨f3, f4⟩ := group_filter a2 b2
    rw [← hi] at f3 f4
    have hgrp : (g :: rest.take pos).Perm (g' :: rest'.take pos') := by rw [f1, f3]; exact hp.filter _
    have hrst : (rest.drop pos).Perm (rest'.drop pos') := by rw [f2, f4]; exact hp.filter _
    have hv : (g.views ++ (rest.take pos).flatMap LGlyph.views).Perm (g'.views ++ (rest'.take pos').flatMap LGlyph.views) := by
      have := hgrp.flatMap_right LGlyph.views
      rwa [List.flatMap_cons, List.flatMap_cons] at this
    rw [mergeLoop, mergeLoop, e1, e2, Res.ok_bind, Res.ok_bind, hi,
      sort_unique viewLt_strictWeak (fun _ _ => viewLt_total) S S' hv,
      mergeLoop_perm S S' fuel (rest.drop pos) (rest'.drop pos')
        (by rw [List.length_drop]; simp only [List.length_cons] at hl; omega) hrst
        (fun x hx => wf x (List.mem_cons_of_mem _ (List.mem_of_mem_drop hx)))
        (p1.2.sublist (List.drop_sublist _ _)) (p2.2.sublist (List.drop_sublist _ _))]

/-- The part in front of the first repeated image. -/
theorem findMerge_perm (S S' : StdSort) : ∀ (fuel : Nat) (s s' : List LGlyph), s.length ≤ fuel → s.Perm s' →
    (∀ g ∈ s, g.img.Full) → ImgSorted s → ImgSorted s' →
    (do let k ← adjacentFind (fun a b => a.img.eq b.img) s
        let r ← mergeLoop S fuel (s.drop k)
        return s.take k ++ r) =
    (do let k ← adjacentFind (fun a b => a.img.eq b.img) s'
        let r ← mergeLoop S' fuel (s'.drop k)
        return s'.take k ++ r : Res (List LGlyph))
  | fuel, [], s', _, hp, _, _, _ => by
    rw [List.nil_perm.1 hp]
    cases fuel <;> rfl
  | fuel, [a], s', _, hp, _, _, _ => by
    have e : s' = [a] := List.perm_singleton.1 hp.symm
    subst e
    cases fuel <;> rfl
  | fuel, a :: b :: l, s', hl, hp, wf, hs, hs' => by
    have hlen := hp.length_eq
    match s', hp, hs', hlen with
    | [], _, _, h => simp at h
    | [_], _, _, h => simp at h
    | a' :: b' :: l', hp, hs', _ =>
      have himg := imgs_eq hp wf hs hs'
      simp only [List.map_cons, List.cons.injEq] at himg
      obtain ⟨ia, ib, _⟩ := himg
      have wa := wf a (by simp)
      have wb := wf b (by simp)
      have ea : (a.img.eq b.img) = .ok (decide (a.img = b.img)) := image_eq_ok wa wb
      have ea' : (a'.img.eq b'.img) = .ok (decide (a.img = b.img)) := by
        rw [← ia, ← ib]; exact ea
      rw [adjacentFind, adjacentFind, ea, ea']
      simp only [Res.ok_bind]
      by_cases e : a.img = b.img
      · simp only [e, decide_true, if_true, Res.ok_bind, Res.pure_eq, List.drop_zero, List.take_zero]
        rw [mergeLoop_perm S S' fuel _ _ hl hp wf hs hs']
      · simp only [e, decide_false, Bool.false_eq_true, if_false]
        have p1 := List.pairwise_cons.1 hs
        have p2 := List.pairwise_cons.1 hs'
        have hlt : ∀ x ∈ b :: l, PictureLt a.img x.img := by
          have hab : PictureLt a.img b.img := by
            by_cases h : PictureLt a.img b.img
            · exact h
            · exact absurd (pictureLt_trich wa wb h (p1.1 b (by simp))) e
          intro x hx
          rcases List.mem_cons.1 hx with rfl | hx'
          · exact hab
          · exact pictureLt_of_lt_of_le wb (wf x (by simp [hx'])) hab ((List.pairwise_cons.1 p1.2).1 x hx')
        have haa : a = a' := by
          rcases List.mem_cons.1 (hp.mem_iff.2 (show a' ∈ a' :: b' :: l' by simp)) with h | h
          · exact h.symm
          · have := hlt a' h
            rw [← ia] at this
            exact absurd this (pictureLt_irrefl _)
        subst haa
        have ih := findMerge_perm S S' fuel (b :: l) (b' :: l') (by simp only [List.length_cons] at hl ⊢; omega)
          (List.Perm.cons_inv hp) (fun x hx => wf x (List.mem_cons_of_mem _ hx)) p1.2 p2.2
        have hcons : ∀ (T : StdSort) (m : List LGlyph),
            (do let k ← (do let k ← adjacentFind (fun a b => a.img.eq b.img) m; return k + 1)
                let r ← mergeLoop T fuel ((a :: m).drop k)
                return (a :: m).take k ++ r : Res (List LGlyph)) =
            (do let o ← (do let k ← adjacentFind (fun a b => a.img.eq b.img) m
                            let r ← mergeLoop T fuel (m.drop k)
                            return m.take k ++ r)
                return a :: o) := by
          intro T m
          simp only [Res.bind_assoc, Res.pure_eq, Res.ok_bind, List.drop_succ_cons, List.take_succ_cons, List.cons_append]
        rw [hcons, hcons, ih]

/-- The glyphs sorted by their images. -/
theorem imgSort_ok (S : StdSort) (gs : List LGlyph) (wf : ∀ g ∈ gs, g.img.Full) :
    ∃ s, sortRes S (fun a b : LGlyph => imageLess a.img b.img) gs = .ok s ∧ s.Perm gs ∧ ImgSorted s :=
  sortRes_ok (S := S) (lt := fun a b : LGlyph => imageLess a.img b.img) (l := gs)
    (fun a b => PictureLt a.img b.img) (fun a ha b hb => imageLess_ok (wf a ha) (wf b hb))
    (fun a _ => pictureLt_irrefl _) (fun _ _ _ _ _ _ h1 h2 => h1.trans h2)
    (by
      intro a ha b hb c hc h1 h2 h3 h4
      have e1 := pictureLt_trich (wf a ha) (wf b hb) h1 h2
      have e2 := pictureLt_trich (wf b hb) (wf c hc) h3 h4
      rw [e1, e2]
      exact ⟨pictureLt_irrefl _, pictureLt_irrefl _⟩)

theorem normalizeGlyphs_perm (S S' : StdSort) {gs gs' : List LGlyph} (h : gs.Perm gs') (wf : ∀ g ∈ gs, g.img.Full) :
    normalizeGlyphs S gs = normalizeGlyphs S' gs' := by
  obtain ⟨s, e, hp, hs⟩ := imgSort_ok S gs wf
  obtain ⟨s', e', hp', hs'⟩ := imgSort_ok S' gs' fun g hg => wf g (h.mem_iff.2 hg)
  have hss : s.Perm s' := hp.trans (h.trans hp'.symm)
  unfold normalizeGlyphs
  rw [e, e', Res.ok_bind, Res.ok_bind, ← hss.length_eq]
  exact findMerge_perm S S' s.length s s' (Nat.le_refl _) hss (fun g hg => wf g (hp.mem_iff.1 hg)) hs hs'

/-! ## Once more -/

theorem adjacentFind_none : ∀ {s : List LGlyph}, (∀ g ∈ s, g.img.Full) → s.Pairwise (fun a b => PictureLt a.img b.img) →
    adjacentFind (fun a b => a.img.eq b.img) s = .ok s.length
  | [], _, _ => rfl
  | [_], _, _ => rfl
  | a :: b :: l, wf, h => by
    have hne : a.img ≠ b.img := by
      intro e
      have := (List.pairwise_cons.1 h).1 b (by simp)
      rw [e] at this
      exact pictureLt_irrefl _ this
    rw [adjacentFind, image_eq_ok (wf a (by simp)) (wf b (by simp)), Res.ok_bind, if_neg (by simpa using hne),
      adjacentFind_none (fun g hg => wf g (List.mem_cons_of_mem _ hg)) (List.pairwise_cons.1 h).2]
    rfl

/-- Glyphs with distinct images are only sorted. -/
theorem normalizeGlyphs_distinct (S : StdSort) {gs s : List LGlyph} (wf : ∀ g ∈ s, g.img.Full)
    (hs : s.Pairwise fun a b => PictureLt a.img b.img) (hp : gs.Perm s) : normalizeGlyphs S gs = .ok s := by
  rw [normalizeGlyphs_perm S S hp fun g hg => wf g (hp.mem_iff.1 hg)]
  obtain ⟨s', e, hp', hs'⟩ := imgSort_ok S s wf
  have : s' = s := List.Perm.eq_of_pairwise (le := fun a b : LGlyph => ¬ PictureLt b.img a.img) (by
      intro a b ha hb h1 h2
      have ei := pictureLt_trich (wf a (hp'.mem_iff.1 ha)) (wf b hb) h2 h1
      have ha := hp'.mem_iff.1 ha
      obtain ⟨i, hi, rfl⟩ := List.getElem_of_mem ha
      obtain ⟨j, hj, rfl⟩ := List.getElem_of_mem hb
      have hpw := List.pairwise_iff_getElem.1 hs
      rcases Nat.lt_trichotomy i j with h | h | h
      · have := hpw i j hi hj h
        rw [ei] at this
        exact absurd this (pictureLt_irrefl _)
      · subst h; rfl
      · have := hpw j i hj hi h
        rw [ei] at this
        exact absurd this (pictureLt_irrefl _)) hs'
    (hs.imp fun {a b} h (h' : PictureLt b.img a.img) => pictureLt_irrefl _ (h.trans h')) hp'
  subst this
  unfold normalizeGlyphs
  rw [e, Res.ok_bind, adjacentFind_none wf hs, Res.ok_bind, List.drop_length]
  have : mergeLoop S s'.length [] = .ok [] := by cases s'.length <;> rfl
  rw [this, Res.ok_bind, List.take_length, List.append_nil]
  rfl

/-! ## The views that are written -/

theorem uniqueFrom_increasing : ∀ (l : List LView) (a : LView), (a :: l).Pairwise (fun a b => viewLt b a = false) →
    ∃ r, uniqueFrom (fun a b => .ok (decide (a = b))) a l = .ok (a :: r) ∧ (a :: r).Pairwise (fun a b => viewLt a b = true) ∧
      ∀ w, w ∈ a :: r ↔ w ∈ a :: l
  | [], a, _ => ⟨[], rfl, by simp, fun _ => Iff.rfl⟩
  | b :: l, a, h => by
    unfold uniqueFrom
    rw [Res.ok_bind]
    rw [List.pairwise_cons, List.pairwise_cons] at h
    by_cases e : a = b
    · subst e
      rw [if_pos (by simp)]
      obtain ⟨r, e1, e2, e3⟩ := uniqueFrom_increasing l a (by
        rw [List.pairwise_cons]; exact ⟨h.2.1, h.2.2⟩)
      exact ⟨r, e1, e2, fun w => by rw [e3]; simp⟩
    · rw [if_neg (by simpa using e)]
      obtain ⟨r, e1, e2, e3⟩ := uniqueFrom_increasing l b (by
        rw [List.pairwise_cons]; exact ⟨h.2.1, h.2.2⟩)
      rw [e1, Res.ok_bind]
      refine ⟨b :: r, rfl, ?_, fun w => by rw [List.mem_cons, e3, List.mem_cons (b := a)]⟩
      have hab : viewLt a b = true := by
        cases hh : viewLt a b with
        | true => rfl
        | false => exact absurd (viewLt_total hh (h.1 b (by simp))) e
      rw [List.pairwise_cons]
      refine ⟨?_, e2⟩
      intro w hw
      rcases List.mem_cons.1 hw with rfl | hw'
      · exact hab
      · exact viewLt_trans hab ((List.pairwise_cons.1 e2).1 w hw')

theorem mergeLoop_views (S : StdSort) : ∀ (fuel : Nat) (l out : List LGlyph), mergeLoop S fuel l = .ok out →
    ∀ g ∈ out, g.views.Pairwise fun a b => viewLt a b = true
  | fuel, [], out, h => by
    have : mergeLoop S fuel [] = .ok [] := by cases fuel <;> rfl
    rw [this] at h
    cases h
    simp
  | 0, _ :: _, _, h => by simp [mergeLoop] at h
  | fuel + 1, g :: rest, out, h => by
    rw [mergeLoop, Res.bind_eq_ok] at h
    obtain ⟨pos, _, h⟩ := h
    rw [Res.bind_eq_ok] at h
    obtain ⟨vs, ev, h⟩ := h
    rw [Res.bind_eq_ok] at h
    obtain ⟨r, er, h⟩ := h
    cases h
    intro x hx
    rcases List.mem_cons.1 hx with rfl | hx
    · have hs := S.sorted viewLt (g.views ++ (rest.take pos).flatMap LGlyph.views) viewLt_strictWeak
      generalize S.sort viewLt (g.views ++ (rest.take pos).flatMap LGlyph.views) = m at ev hs
      cases m with
      | nil => cases ev; simp
      | cons a m =>
        obtain ⟨r, e1, e2, _⟩ := uniqueFrom_increasing m a hs
        rw [uniqueBy, e1] at ev
        cases ev
        exact e2
    · exact mergeLoop_views S fuel _ _ er x hx

/-! ## Files -/

theorem glyphsLoop_acc : ∀ (fuel : Nat) (s : IS) (old : List LView) (acc : List LGlyph),
    glyphsLoop fuel s old acc = (do let r ← glyphsLoop fuel s old []; return (acc ++ r.1, r.2))
  | 0, _, _, _ => rfl
  | fuel + 1, s, old, acc => by
    rw [glyphsLoop, glyphsLoop]
    by_cases hf : (glyphRead s ⟨⟨⟨0, 0⟩, []⟩, old⟩).2.fail = true
    · rw [if_pos hf, if_pos hf]
      simp
    · rw [if_neg hf, if_neg hf, glyphsLoop_acc fuel _ _ (acc ++ _), glyphsLoop_acc fuel _ _ ([] ++ _)]
      simp

/-- The glyphs of one file, if it is accepted. -/
def fileGlyphs : Option (List Nat) → Option (List LGlyph)
  | none => none
  | some t =>
    match glyphsRead (IS.of t) [] with
    | .ok r => if r.2.eof then some r.1 else none
    | _ => none

theorem readGlyphFiles_iff : ∀ (files : List (Option (List Nat))) (gs l : List LGlyph),
    readGlyphFiles files gs = .ok (.ok l) ↔ ∃ ls : List (List LGlyph), files.map fileGlyphs = ls.map some ∧ l = gs ++ ls.flatten
  | [], gs, l => by
    rw [readGlyphFiles]
    constructor
    · intro h
      cases h
      exact ⟨[], rfl, by simp⟩
    · rintro ⟨ls, h, rfl⟩
      have : ls = [] := by simpa using h.symm
      subst this
      simp
  | none :: fs, gs, l => by
    rw [readGlyphFiles]
    constructor
    · intro h; simp at h
    · rintro ⟨ls, h, _⟩
      cases ls with
      | nil => simp at h
      | cons a ls => simp [fileGlyphs] at h
  | some t :: fs, gs, l => by
    have e : glyphsRead (IS.of t) gs = (do let r ← glyphsRead (IS.of t) []; return (gs ++ r.1, r.2)) :=
      glyphsLoop_acc _ _ _ _
    obtain ⟨l0, s0, e0, _⟩ := glyphsLoop_total ((IS.of t).rest.length + 1) (IS.of t) [] [] (by omega)
    have e1 : glyphsRead (IS.of t) [] = .ok (l0, s0) := e0
    have hf : fileGlyphs (some t) = if s0.eof then some l0 else none := by
      simp only [fileGlyphs, e1]
    rw [readGlyphFiles, e, e1]
    simp only [Res.ok_bind, Res.pure_eq]
    cases hs : s0.eof with
    | false =>
      simp only [Bool.false_eq_true, if_false, hs] at hf ⊢
      constructor
      · intro h; simp at h
      · rintro ⟨ls, h, _⟩
        cases ls with
        | nil => simp at h
        | cons a ls => rw [List.map_cons, hf] at h; simp at h
    | true =>
      simp only [if_true, hs] at hf ⊢
      rw [readGlyphFiles_iff fs]
      constructor
      · rintro ⟨ls, h, rfl⟩
        exact ⟨l0 :: ls, by rw [List.map_cons, hf, h]; rfl, by simp⟩
      · rintro ⟨ls, h, rfl⟩
        cases ls with
        | nil => simp at h
        | cons a ls =>
          rw [List.map_cons, hf, List.map_cons, List.cons.injEq, Option.some.injEq] at h
          exact ⟨ls, h.2, by rw [h.1]; simp⟩

theorem perm_somes {α : Type} : ∀ {l l' : List (Option α)} {ls : List α}, l.Perm l' → l = ls.map some →
    ∃ ls', l' = ls'.map some ∧ ls.Perm ls' := by
  intro l l' ls h
  induction h generalizing ls with
  | nil => intro e; exact ⟨[], rfl, by rw [List.map_eq_nil_iff.1 e.symm]⟩
  | cons x _ ih =>
    intro e
    cases ls with
    | nil => simp at e
    | cons a ls =>
      rw [List.map_cons, List.cons.injEq] at e
      obtain ⟨ls', e', hp⟩ := ih e.2
      exact ⟨a :: ls', by rw [e', e.1]; rfl, hp.cons a⟩
  | swap x y l =>
    intro e
    match ls, e with
    | a :: b :: ls, e =>
      simp only [List.map_cons, List.cons.injEq] at e
      exact ⟨b :: a :: ls, by simp [e.1, e.2.1, e.2.2], List.Perm.swap _ _ _⟩
  | trans _ _ ih1 ih2 =>
    intro e
    obtain ⟨l1, e1, p1⟩ := ih1 e
    obtain ⟨l2, e2, p2⟩ := ih2 e1
    exact ⟨l2, e2, p1.trans p2⟩

end Ppocr

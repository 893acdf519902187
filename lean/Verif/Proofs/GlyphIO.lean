import Verif.Model.GlyphIO
import Verif.Proofs.DictIO

/-! # Glyph files: writing and reading back -/

namespace Ppocr

/-- A word or font name as a glyph file can hold it. -/
def Token (w : List Nat) : Prop := w ≠ [] ∧ ∀ c ∈ w, isSpace c = false

/-- A view as a glyph file can hold it. -/
def LView.Good (v : LView) : Prop := Token v.word ∧ Token v.font ∧ v.info ≤ maxU

/-- A glyph as a glyph file can hold it. -/
structure LGlyph.Good (g : LGlyph) : Prop where
  img : g.img.WF
  views : ∀ v ∈ g.views, v.Good
  count : g.views.length ≤ maxU

theorem space_32 (l : List Nat) : ∀ c t, 32 :: l = c :: t → isSpace c = true := by
  intro c t h
  rw [List.cons.injEq] at h
  rw [← h.1]; rfl

theorem dec_32 (l : List Nat) : ∀ c t, 32 :: l = c :: t → isDec c = false := by
  intro c t h
  rw [List.cons.injEq] at h
  rw [← h.1]; rfl

theorem dec_10 (l : List Nat) : ∀ c t, 10 :: l = c :: t → isDec c = false := by
  intro c t h
  rw [List.cons.injEq] at h
  rw [← h.1]; rfl

theorem WF_area {i : Image} (h : i.WF) : i.bounds.area = i.data.length := by
  rw [h.len]
  unfold Bounds.area umul
  exact Nat.mod_eq_of_lt h.small

theorem imgWrite_ok {i : Image} (h : i.WF) :
    imgWrite i = .ok (boundsWrite i.bounds ++ 32 :: i.data.map UInt8.toNat) := by
  unfold imgWrite
  rw [WF_area h, if_pos (Nat.le_refl _), List.take_length]

theorem ofNat_toNat (l : List UInt8) : (l.map UInt8.toNat).map UInt8.ofNat = l := by
  rw [List.map_map]
  rw [List.map_congr_left (g := id)]
  · simp
  · intro a _
    simp

theorem maxU_succ {n : Nat} (h : n < W32) : n ≤ maxU := by
  unfold maxU
  omega

/-- Blanks before the image are skipped. -/
theorem imgRead_write {i : Image} (h : i.WF) (p g : List Nat) (hp : ∀ c ∈ p, isSpace c = true) (old : Image) :
    imgRead ⟨p ++ (boundsWrite i.bounds ++ 32 :: (i.data.map UInt8.toNat ++ g)), false, false, true⟩ old =
      (i, ⟨g, false, false, true⟩) := by
  unfold imgRead boundsRead boundsWrite
  rw [List.append_assoc, List.cons_append, uint_show (maxU_succ h.w_lt) hp (by simp) (dec_32 _)]
  simp only [List.isEmpty_cons]
  rw [show 32 :: (showNat i.bounds.h ++ 32 :: (i.data.map UInt8.toNat ++ g)) =
      [32] ++ (showNat i.bounds.h ++ 32 :: (i.data.map UInt8.toNat ++ g)) from rfl,
    uint_show (maxU_succ h.h_lt) (by decide) (by simp) (dec_32 _)]
  simp only [Bool.false_eq_true, if_false, List.isEmpty_cons, IS.bump, List.drop_succ_cons, List.drop_zero]
  have e : IS.read ⟨i.data.map UInt8.toNat ++ g, false, false, true⟩ (Bounds.area ⟨i.bounds.w, i.bounds.h⟩) =
      (i.data.map UInt8.toNat, ⟨g, false, false, true⟩) := by
    have ha : Bounds.area ⟨i.bounds.w, i.bounds.h⟩ = (i.data.map UInt8.toNat).length := by
      rw [List.length_map]
      exact WF_area h
    rw [ha]
    unfold IS.read IS.sentry IS.good
    simp
  rw [e]
  simp only [Bool.false_eq_true, if_false, ofNat_toNat]

theorem viewRead_write {v : LView} (h : v.Good) (p g : List Nat) (hp : ∀ c ∈ p, isSpace c = true) (old : LView) :
    viewRead ⟨p ++ (viewWrite v ++ g), false, false, true⟩ old = (v, ⟨10 :: g, false, false, true⟩) := by
  obtain ⟨⟨hw1, hw2⟩, ⟨hf1, hf2⟩, hi⟩ := h
  have e : p ++ (viewWrite v ++ g) = p ++ (v.word ++ 32 :: (v.font ++ 32 :: (showNat v.info ++ 10 :: g))) := by
    simp [viewWrite]
  unfold viewRead
  rw [e, str_show hw1 hw2 hp (by simp) (space_32 _)]
  simp only [List.isEmpty_cons]
  rw [show ∀ l : List Nat, 32 :: l = [32] ++ l from fun _ => rfl, str_show hf1 hf2 (by decide) (by simp) (space_32 _)]
  simp only [List.isEmpty_cons]
  rw [show ∀ l : List Nat, 32 :: l = [32] ++ l from fun _ => rfl, uint_show hi (by decide) (by simp) (dec_10 _)]
  simp only [List.isEmpty_cons]

theorem viewsLoop_write {g : List Nat} : ∀ (vs olds : List LView), olds.length = vs.length →
    (∀ v ∈ vs, v.Good) →
    viewsLoop olds ⟨10 :: (vs.flatMap viewWrite ++ g), false, false, true⟩ =
      (vs, ⟨10 :: g, false, false, true⟩)
  | [], [], _, _ => by simp [viewsLoop]
  | [], _ :: _, h, _ => by simp at h
  | _ :: _, [], h, _ => by simp at h
  | v :: vs, o :: olds, hl, h => by
    have e : (10 :: ((v :: vs).flatMap viewWrite ++ g)) = [10] ++ (viewWrite v ++ (vs.flatMap viewWrite ++ g)) := by
      simp
    rw [e, viewsLoop, viewRead_write (h v (by simp)) [10] _ (by decide)]
    simp only [Bool.false_eq_true, if_false]
    rw [viewsLoop_write vs olds (by simpa using hl) fun u hu => h u (by simp [hu])]

theorem resizeTo_length {α : Type} (d : α) (n : Nat) (l : List α) : (resizeTo d n l).length = n := by
  unfold resizeTo
  rw [List.length_append, List.length_take, List.length_replicate]
  omega

theorem viewsRead_write {vs : List LView} (h : ∀ v ∈ vs, v.Good) (hc : vs.length ≤ maxU) (p g : List Nat)
    (hp : ∀ c ∈ p, isSpace c = true) (old : List LView) :
    viewsRead ⟨p ++ (viewsWrite vs ++ g), false, false, true⟩ old = (vs, ⟨10 :: g, false, false, true⟩) := by
  have e : viewsWrite vs ++ g = showNat vs.length ++ 10 :: (vs.flatMap viewWrite ++ g) := by
    simp [viewsWrite]
  unfold viewsRead
  rw [e, uint_show hc hp (by simp) (dec_10 _)]
  simp only [Bool.false_eq_true, if_false, List.isEmpty_cons]
  exact viewsLoop_write vs _ (resizeTo_length _ _ _) h

theorem glyphWrite_ok {g : LGlyph} (h : g.Good) :
    glyphWrite g = .ok (boundsWrite g.img.bounds ++ 32 :: (g.img.data.map UInt8.toNat ++ 10 :: viewsWrite g.views)) := by
  unfold glyphWrite
  rw [imgWrite_ok h.img]
  simp

theorem glyphRead_write {g : LGlyph} (h : g.Good) {t : List Nat} (ht : glyphWrite g = .ok t) (p r : List Nat)
    (hp : ∀ c ∈ p, isSpace c = true) (old : LGlyph) :
    glyphRead ⟨p ++ (t ++ r), false, false, true⟩ old = (g, ⟨10 :: r, false, false, true⟩) := by
  rw [glyphWrite_ok h] at ht
  injection ht with ht
  subst ht
  unfold glyphRead
  rw [show ∀ a b c d : List Nat, (a ++ 32 :: (b ++ 10 :: c)) ++ d = a ++ 32 :: (b ++ 10 :: (c ++ d)) by
    intros; simp, imgRead_write h.img p _ hp]
  simp only [Bool.false_eq_true, if_false]
  rw [show ∀ l : List Nat, 10 :: l = [10] ++ l from fun _ => rfl,
    viewsRead_write h.views h.count [10] _ (by decide)]

theorem glyphsLoop_write : ∀ (gs : List LGlyph) (t p : List Nat) (fuel : Nat) (old : List LView) (acc : List LGlyph),
    (∀ g ∈ gs, g.Good) → glyphsWrite gs = .ok t → (∀ c ∈ p, isSpace c = true) →
    gs.length < fuel →
    glyphsLoop fuel ⟨p ++ t, false, false, true⟩ old acc = .ok (acc ++ gs, ⟨[], true, true, true⟩)
  | _, _, _, 0, _, _, _, _, _, h => by omega
  | [], t, p, fuel + 1, old, acc, _, ht, hp, _ => by
    simp only [glyphsWrite, Res.ok.injEq] at ht
    subst ht
    have hd : (p ++ []).dropWhile isSpace = [] := (dropWhile_prefix (b := []) hp (by simp)).1
    have e : glyphRead ⟨p ++ [], false, false, true⟩ ⟨⟨⟨0, 0⟩, []⟩, old⟩ =
        (⟨⟨⟨0, 0⟩, []⟩, old⟩, ⟨[], true, true, true⟩) := by
      simp only [glyphRead, imgRead, boundsRead, IS.uint, IS.sentry, IS.good, hd]
      rfl
    rw [glyphsLoop, e, if_pos rfl, List.append_nil]
  | g :: gs, t, p, fuel + 1, old, acc, h, ht, hp, hf => by
    unfold glyphsWrite at ht
    obtain ⟨t1, h1, ht⟩ := Res.bind_eq_ok.1 ht
    obtain ⟨t2, h2, ht⟩ := Res.bind_eq_ok.1 ht
    simp only [Res.pure_eq, Res.ok.injEq] at ht
    subst ht
    rw [glyphsLoop, glyphRead_write (h g (by simp)) h1 p t2 hp]
    simp only [Bool.false_eq_true, if_false]
    rw [show ∀ l : List Nat, 10 :: l = [10] ++ l from fun _ => rfl,
      glyphsLoop_write gs t2 [10] fuel g.views _ (fun u hu => h u (by simp [hu])) h2 (by decide)
      (by simpa using hf)]
    simp

theorem glyphsWrite_total : ∀ {gs : List LGlyph}, (∀ g ∈ gs, g.Good) →
    ∃ t, glyphsWrite gs = .ok t ∧ gs.length ≤ t.length
  | [], _ => ⟨[], rfl, by simp⟩
  | g :: gs, h => by
    obtain ⟨t, ht, hl⟩ := glyphsWrite_total (gs := gs) fun u hu => h u (by simp [hu])
    have e : glyphsWrite (g :: gs) = .ok ((boundsWrite g.img.bounds ++
        32 :: (g.img.data.map UInt8.toNat ++ 10 :: viewsWrite g.views)) ++ t) := by
      unfold glyphsWrite
      rw [glyphWrite_ok (h g (by simp)), Res.ok_bind, ht, Res.ok_bind]
      rfl
    refine ⟨_, e, ?_⟩
    simp only [List.length_append, List.length_cons]
    omega

/-! ## Reading ends -/

theorem sentry_true {s : IS} {b : Bool} (h : (s.sentry b).2 = true) : s.fail = false ∧ (s.sentry b).1.fail = false := by
  unfold IS.sentry at h ⊢
  cases hg : s.good with
  | false => rw [hg] at h; simp at h
  | true =>
    have : s.fail = false := by
      unfold IS.good at hg
      simp at hg
      exact hg.2
    rw [hg] at h
    refine ⟨this, ?_⟩
    simp only [Bool.not_true, Bool.false_eq_true, if_false] at h ⊢
    split
    · rename_i h1
      rw [if_pos h1] at h
      split
      · rename_i h2
        rw [if_pos h2] at h
        simp at h
      · exact this
    · exact this

theorem takeDrop_length {p : Nat → Bool} (l : List Nat) :
    (l.takeWhile p).length + (l.dropWhile p).length = l.length := by
  conv => rhs; rw [← List.takeWhile_append_dropWhile (p := p) (l := l)]
  rw [List.length_append]

/-- A number that is read takes at least one byte. -/
theorem uint_lt {m : Nat} {s : IS} {o : Nat} (hf : (s.uint m o).2.fail = false) :
    (s.uint m o).2.rest.length < s.rest.length ∧ s.fail = false := by
  have h := sentry_le s false
  have h0 := @sentry_false s false
  have h2 := @sentry_true s false
  unfold IS.uint at hf ⊢
  rcases e : s.sentry false with ⟨s', b⟩
  rw [e] at h h0 h2 hf
  cases b with
  | false =>
    have := h0 rfl
    simp only [] at hf this
    rw [this] at hf
    simp at hf
  | true =>
    refine ⟨?_, (h2 rfl).1⟩
    simp only [] at hf h ⊢
    have h1 := parseSign_le s'.rest
    have h3 := takeDrop_length (p := isDec) (parseSign s'.rest).2
    split at hf
    · simp at hf
    · rename_i hd
      rw [if_neg hd]
      have hd' : 0 < ((parseSign s'.rest).2.takeWhile isDec).length := by
        rw [List.isEmpty_iff] at hd
        exact List.length_pos_iff.2 hd
      split at hf
      · simp at hf
      · rename_i hm
        rw [if_neg hm]
        simp only []
        omega

theorem str_mono (s : IS) (o : List Nat) : (s.str o).2.rest.length ≤ s.rest.length ∧
    ((s.str o).2.fail = false → s.fail = false) := by
  have h := sentry_le s false
  have h0 := @sentry_false s false
  have h2 := @sentry_true s false
  unfold IS.str
  rcases e : s.sentry false with ⟨s', b⟩
  rw [e] at h h0 h2
  cases b with
  | false =>
    refine ⟨h, fun hf => ?_⟩
    have := h0 rfl
    simp only [] at hf this
    rw [this] at hf
    simp at hf
  | true =>
    refine ⟨?_, fun _ => (h2 rfl).1⟩
    have := dropWhile_length_le (p := fun c => !isSpace c) s'.rest
    simp only [] at h ⊢
    omega

theorem read_mono (s : IS) (n : Nat) : (s.read n).2.rest.length ≤ s.rest.length ∧
    ((s.read n).2.fail = false → s.fail = false) := by
  have h := sentry_le s true
  have h0 := @sentry_false s true
  have h2 := @sentry_true s true
  unfold IS.read
  rcases e : s.sentry true with ⟨s', b⟩
  rw [e] at h h0 h2
  cases b with
  | false =>
    refine ⟨h, fun hf => ?_⟩
    have := h0 rfl
    simp only [] at hf this
    rw [this] at hf
    simp at hf
  | true =>
    refine ⟨?_, fun _ => (h2 rfl).1⟩
    simp only [] at h ⊢
    split
    · simp only [List.length_drop]; omega
    · simp

theorem viewRead_le (s : IS) (o : LView) : (viewRead s o).2.rest.length ≤ s.rest.length := by
  unfold viewRead
  simp only []
  exact Nat.le_trans (uint_le _ _ _) (Nat.le_trans (str_mono _ _).1 (str_mono _ _).1)

theorem viewsLoop_le : ∀ (vs : List LView) (s : IS), (viewsLoop vs s).2.rest.length ≤ s.rest.length
  | [], s => Nat.le_refl _
  | v :: vs, s => by
    have := viewRead_le s v
    rw [viewsLoop]
    split
    · exact this
    · exact Nat.le_trans (viewsLoop_le vs _) this

theorem imgRead_lt {s : IS} {o : Image} (hf : (imgRead s o).2.fail = false) :
    (imgRead s o).2.rest.length < s.rest.length := by
  have hb : (boundsRead s ⟨0, 0⟩).2.fail = false → (boundsRead s ⟨0, 0⟩).2.rest.length < s.rest.length := by
    intro h
    unfold boundsRead at h ⊢
    simp only [] at h ⊢
    have h1 := uint_lt h
    have h2 := uint_lt h1.2
    omega
  unfold imgRead at hf ⊢
  simp only [] at hf ⊢
  by_cases h1 : (boundsRead s ⟨0, 0⟩).2.fail = true
  · rw [if_pos h1] at hf
    simp only [] at hf
    rw [h1] at hf
    simp at hf
  · rw [if_neg h1] at hf ⊢
    have h2 := hb (by simpa using h1)
    have h3 := (read_mono (boundsRead s ⟨0, 0⟩).2.bump (boundsRead s ⟨0, 0⟩).1.area).1
    have h4 : (boundsRead s ⟨0, 0⟩).2.bump.rest.length ≤ (boundsRead s ⟨0, 0⟩).2.rest.length := by
      simp only [IS.bump, List.length_drop]; omega
    split <;> (simp only []; omega)

theorem glyphRead_lt {s : IS} {o : LGlyph} (hf : (glyphRead s o).2.fail = false) :
    (glyphRead s o).2.rest.length < s.rest.length := by
  unfold glyphRead at hf ⊢
  simp only [] at hf ⊢
  by_cases h1 : (imgRead s o.img).2.fail = true
  · rw [if_pos h1] at hf
    simp only [] at hf
    rw [h1] at hf
    simp at hf
  · rw [if_neg h1] at hf ⊢
    have h2 := imgRead_lt (by simpa using h1)
    refine Nat.lt_of_le_of_lt ?_ h2
    simp only []
    unfold viewsRead
    simp only []
    have h3 := uint_le maxU (imgRead s o.img).2 0
    split
    · exact h3
    · exact Nat.le_trans (viewsLoop_le _ _) h3

theorem glyphsLoop_total : ∀ (fuel : Nat) (s : IS) (old : List LView) (acc : List LGlyph), s.rest.length < fuel →
    ∃ gs s', glyphsLoop fuel s old acc = .ok (acc ++ gs, s') ∧ s'.fail = true
  | 0, _, _, _, h => by omega
  | fuel + 1, s, old, acc, h => by
    rw [glyphsLoop]
    by_cases hf : (glyphRead s ⟨⟨⟨0, 0⟩, []⟩, old⟩).2.fail = true
    · rw [if_pos hf]
      exact ⟨[], _, by simp, hf⟩
    · rw [if_neg hf]
      have := glyphRead_lt (by simpa using hf)
      obtain ⟨gs, s', e, h'⟩ := glyphsLoop_total fuel (glyphRead s ⟨⟨⟨0, 0⟩, []⟩, old⟩).2
        (glyphRead s ⟨⟨⟨0, 0⟩, []⟩, old⟩).1.views (acc ++ [(glyphRead s ⟨⟨⟨0, 0⟩, []⟩, old⟩).1]) (by omega)
      exact ⟨_ :: gs, s', by rw [e, List.append_assoc]; rfl, h'⟩

end Ppocr

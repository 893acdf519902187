import Verif.Proofs.Glyphs

/-! # Loading a glyph file, and looking for a word -/

namespace Ppocr
open Spec

/-! ## The first half of the loader -/

theorem ignore_line {l r : List Nat} (hl : 10 ∉ l) (ws : Bool) :
    IS.ignore ⟨l ++ 10 :: r, false, false, ws⟩ 10 = ⟨r, false, false, ws⟩ := by
  obtain ⟨e1, _⟩ := dropWhile_prefix (p := fun c => decide (c ≠ 10)) (a := l) (b := 10 :: r)
    (fun c hc => by
      simp only [decide_eq_true_eq]
      intro h; subst h; exact hl hc)
    (fun c t h => by
      rw [List.cons.injEq] at h
      rw [← h.1]; rfl)
  have hn : (fun x : Nat => !decide (x = 10)) = fun c => decide (c ≠ 10) := by funext x; simp
  unfold IS.ignore IS.sentry IS.good
  simp [hn, e1]

theorem ignore_end (ws : Bool) : IS.ignore ⟨[], false, false, ws⟩ 10 = ⟨[], true, false, ws⟩ := by
  cases ws <;> rfl

/-- The number of a string, 0 if it has none. -/
def idOf (m : StrMap) (w : List Nat) : Nat := (mapFind m w).getD 0

theorem idOf_ext {m m' : StrMap} (h : MapExt m m') {w : List Nat} (hw : w ∈ m.map Prod.fst) : idOf m' w = idOf m w := by
  rw [← mapFind_isSome] at hw
  obtain ⟨i, e⟩ := Option.isSome_iff_exists.1 hw
  unfold idOf
  rw [e, h w i e]

theorem showNat_no_nl (n : Nat) : 10 ∉ showNat n := fun h => by
  have := showNat_dec n 10 h
  revert this; decide

theorem token_no_nl {w : List Nat} (h : Token w) : 10 ∉ w := fun hm => by
  have := h.2 10 hm
  revert this; decide

theorem rviewsLoop_write {g : List Nat} : ∀ (vs : List LView) (p : List Nat) (wm fm : StrMap), vs ≠ [] →
    (∀ v ∈ vs, v.Good) → (∀ c ∈ p, isSpace c = true) → MapOk wm → MapOk fm →
    wm.length + vs.length < W32 → fm.length + vs.length < W32 →
    ∃ wm' fm', rviewsLoop vs.length ⟨p ++ (vs.flatMap viewWrite ++ g), false, false, true⟩ wm fm =
        (vs.map fun v => ⟨idOf wm' v.word, idOf fm' v.font⟩, ⟨g, false, false, true⟩, wm', fm') ∧
      MapOk wm' ∧ MapOk fm' ∧ MapExt wm wm' ∧ MapExt fm fm' ∧ MapKeys wm wm' (vs.map LView.word) ∧
      MapKeys fm fm' (vs.map LView.font) ∧ wm'.length ≤ wm.length + vs.length ∧ fm'.length ≤ fm.length + vs.length
  | [], _, _, _, h, _, _, _, _, _, _ => absurd rfl h
  | v :: vs, p, wm, fm, _, hg, hp, hwm, hfm, hws, hfs => by
    obtain ⟨⟨hw1, hw2⟩, ⟨hf1, hf2⟩, hi⟩ := hg v (by simp)
    simp only [List.length_cons] at hws hfs
    obtain ⟨a1, a2, a3, a4, a5⟩ := intern_ok hwm v.word (by omega)
    obtain ⟨b1, b2, b3, b4, b5⟩ := intern_ok hfm v.font (by omega)
    have e : p ++ ((v :: vs).flatMap viewWrite ++ g) =
        p ++ (v.word ++ 32 :: (v.font ++ 32 :: (showNat v.info ++ 10 :: (vs.flatMap viewWrite ++ g)))) := by
      simp [viewWrite]
    have hstep : ∀ n, rviewsLoop (n + 1) ⟨p ++ ((v :: vs).flatMap viewWrite ++ g), false, false, true⟩ wm fm =
        (⟨(intern wm v.word).1, (intern fm v.font).1⟩ ::
          (rviewsLoop n ⟨vs.flatMap viewWrite ++ g, false, false, true⟩ (intern wm v.word).2 (intern fm v.font).2).1,
          (rviewsLoop n ⟨vs.flatMap viewWrite ++ g, false, false, true⟩ (intern wm v.word).2
            (intern fm v.font).2).2) := by
      intro n
      rw [e, rviewsLoop, str_show hw1 hw2 hp (by simp) (space_32 _)]
      simp only [List.isEmpty_cons]
      rw [show ∀ l : List Nat, 32 :: l = [32] ++ l from fun _ => rfl,
        str_show hf1 hf2 (by decide) (by simp) (space_32 _)]
      simp only [List.isEmpty_cons]
      rw [show ∀ l : List Nat, 32 :: (showNat v.info ++ 10 :: l) = (32 :: showNat v.info) ++ 10 :: l from
        fun _ => rfl, ignore_line (by simp [showNat_no_nl])]
      simp only [Bool.false_eq_true, if_false]
    rw [List.length_cons, hstep]
    by_cases hvs : vs = []
    · subst hvs
      refine ⟨(intern wm v.word).2, (intern fm v.font).2, ?_, a1, b1, a2, b2, a3, b3, ?_, ?_⟩
      · simp only [List.length_nil, rviewsLoop, List.map_cons, List.map_nil, idOf, a4, b4, Option.getD_some]
        simp
      · exact a5
      · exact b5
    · obtain ⟨wm', fm', c0, c1, c2, c3, c4, c5, c6, c7, c8⟩ := rviewsLoop_write vs [] (intern wm v.word).2
        (intern fm v.font).2 hvs (fun u hu => hg u (by simp [hu])) (by simp) a1 b1 (by omega) (by omega)
      rw [List.nil_append] at c0
      refine ⟨wm', fm', ?_, c1, c2, a2.trans c3, b2.trans c4, ?_, ?_, ?_, ?_⟩
      · rw [c0]
        simp only [List.map_cons, idOf, c3 _ _ a4, c4 _ _ b4, Option.getD_some]
      · intro w
        rw [c5, a3, List.mem_singleton, List.map_cons, List.mem_cons, or_assoc]
      · intro w
        rw [c6, b3, List.mem_singleton, List.map_cons, List.mem_cons, or_assoc]
      · omega
      · omega

/-- A glyph that the recogniser can read: it has a view and its image has no byte that looks like a newline. -/
structure LGlyph.Readable (g : LGlyph) : Prop extends g.Good where
  some_view : g.views ≠ []
  no_nl : ∀ p ∈ g.img.data, p ≠ 10

theorem header_no_nl {g : LGlyph} (h : g.Readable) :
    10 ∉ boundsWrite g.img.bounds ++ 32 :: g.img.data.map UInt8.toNat := by
  intro hm
  rcases List.mem_append.1 hm with hm | hm
  · unfold boundsWrite at hm
    rcases List.mem_append.1 hm with hm | hm
    · exact showNat_no_nl _ hm
    · rcases List.mem_cons.1 hm with hm | hm
      · simp at hm
      · exact showNat_no_nl _ hm
  · rcases List.mem_cons.1 hm with hm | hm
    · simp at hm
    · obtain ⟨p, hp, e⟩ := List.mem_map.1 hm
      exact h.no_nl p hp (UInt8.toNat_inj.1 e)

/-- All the views of a list of glyphs. -/
def allViews (gs : List LGlyph) : List LView := gs.flatMap LGlyph.views

/-- The loop over glyphs that were written, and something behind them that stops it. -/
theorem rglyphsLoop_stop {l : List Nat} {se : IS} (hl : ∀ (fuel : Nat) (wm fm : StrMap) (acc : List (List View)),
    rglyphsLoop (fuel + 1) ⟨l, false, false, true⟩ wm fm acc = .ok (acc, se, wm, fm)) : ∀ (gs : List LGlyph) (t : List Nat) (fuel : Nat) (wm fm : StrMap)
    (acc : List (List View)), (∀ g ∈ gs, g.Readable) → glyphsWrite gs = .ok t → gs.length < fuel →
    MapOk wm → MapOk fm → wm.length + (allViews gs).length < W32 → fm.length + (allViews gs).length < W32 →
    ∃ wm' fm', rglyphsLoop fuel ⟨t ++ l, false, false, true⟩ wm fm acc =
        .ok (acc ++ gs.map (fun g => g.views.map fun v => ⟨idOf wm' v.word, idOf fm' v.font⟩),
          se, wm', fm') ∧
      MapOk wm' ∧ MapOk fm' ∧ MapExt wm wm' ∧ MapExt fm fm' ∧
      MapKeys wm wm' ((allViews gs).map LView.word) ∧ MapKeys fm fm' ((allViews gs).map LView.font)
  | _, _, 0, _, _, _, _, _, h, _, _, _, _ => by omega
  | [], t, fuel + 1, wm, fm, acc, _, ht, _, hwm, hfm, _, _ => by
    simp only [glyphsWrite, Res.ok.injEq] at ht
    subst ht
    refine ⟨wm, fm, ?_, hwm, hfm, fun _ _ h => h, fun _ _ h => h, by intro w; simp [allViews],
      by intro w; simp [allViews]⟩
    rw [List.nil_append, hl]
    simp
  | g :: gs, t, fuel + 1, wm, fm, acc, h, ht, hf, hwm, hfm, hws, hfs => by
    have hg := h g (by simp)
    unfold glyphsWrite at ht
    obtain ⟨t1, h1, ht⟩ := Res.bind_eq_ok.1 ht
    obtain ⟨t2, h2, ht⟩ := Res.bind_eq_ok.1 ht
    simp only [Res.pure_eq, Res.ok.injEq] at ht
    rw [glyphWrite_ok hg.toGood] at h1
    injection h1 with h1
    have e : t ++ l = (boundsWrite g.img.bounds ++ 32 :: g.img.data.map UInt8.toNat) ++
        10 :: (showNat g.views.length ++ 10 :: (g.views.flatMap viewWrite ++ (t2 ++ l))) := by
      rw [← ht, ← h1]
      simp [viewsWrite]
    have hall : allViews (g :: gs) = g.views ++ allViews gs := by simp [allViews]
    rw [hall, List.length_append] at hws hfs
    obtain ⟨wm1, fm1, c0, c1, c2, c3, c4, c5, c6, c7, c8⟩ := rviewsLoop_write (g := t2 ++ l) g.views [10] wm fm hg.some_view
      hg.views (by decide) hwm hfm (by omega) (by omega)
    obtain ⟨wm', fm', d0, d1, d2, d3, d4, d5, d6⟩ := rglyphsLoop_stop hl gs t2 fuel wm1 fm1
      (acc ++ [g.views.map fun v => ⟨idOf wm1 v.word, idOf fm1 v.font⟩]) (fun u hu => h u (by simp [hu])) h2
      (by simpa using hf) c1 c2 (by omega) (by omega)
    refine ⟨wm', fm', ?_, d1, d2, c3.trans d3, c4.trans d4, ?_, ?_⟩
    · rw [rglyphsLoop, e, ignore_line (header_no_nl hg)]
      simp only [Bool.false_eq_true, if_false]
      rw [show ∀ l : List Nat, showNat g.views.length ++ l = [] ++ (showNat g.views.length ++ l) from fun _ => rfl,
        uint_show (max := W32 - 1) hg.count (by simp) (by simp) (dec_10 _)]
      simp only [List.isEmpty_cons, Bool.false_eq_true, if_false]
      rw [show ∀ l : List Nat, 10 :: l = [10] ++ l from fun _ => rfl, c0]
      simp only []
      rw [d0]
      have : (g.views.map fun v => (⟨idOf wm1 v.word, idOf fm1 v.font⟩ : View)) =
          g.views.map fun v => ⟨idOf wm' v.word, idOf fm' v.font⟩ := by
        apply List.map_congr_left
        intro v hv
        rw [idOf_ext d3 ((c5 v.word).2 (.inr (List.mem_map.2 ⟨v, hv, rfl⟩))),
          idOf_ext d4 ((c6 v.font).2 (.inr (List.mem_map.2 ⟨v, hv, rfl⟩)))]
      rw [this]
      simp
    · intro w
      rw [d5, c5, hall, List.map_append, List.mem_append, or_assoc]
    · intro w
      rw [d6, c6, hall, List.map_append, List.mem_append, or_assoc]

theorem rglyphsLoop_write (gs : List LGlyph) (t : List Nat) (fuel : Nat) (wm fm : StrMap)
    (acc : List (List View)) (h : ∀ g ∈ gs, g.Readable) (ht : glyphsWrite gs = .ok t) (hf : gs.length < fuel)
    (hwm : MapOk wm) (hfm : MapOk fm) (hws : wm.length + (allViews gs).length < W32)
    (hfs : fm.length + (allViews gs).length < W32) :
    ∃ wm' fm', rglyphsLoop fuel ⟨t, false, false, true⟩ wm fm acc =
        .ok (acc ++ gs.map (fun g => g.views.map fun v => ⟨idOf wm' v.word, idOf fm' v.font⟩),
          ⟨[], true, true, true⟩, wm', fm') ∧
      MapOk wm' ∧ MapOk fm' ∧ MapExt wm wm' ∧ MapExt fm fm' ∧
      MapKeys wm wm' ((allViews gs).map LView.word) ∧ MapKeys fm fm' ((allViews gs).map LView.font) := by
  have := rglyphsLoop_stop (l := []) (se := ⟨[], true, true, true⟩) (by
    intro fuel wm fm acc
    rw [rglyphsLoop, ignore_end]
    simp [IS.uint, IS.sentry, IS.good]) gs t fuel wm fm acc h ht hf hwm hfm hws hfs
  rwa [List.append_nil] at this

theorem mapOk_nil : MapOk [] := ⟨List.Pairwise.nil, List.Perm.refl _⟩

/-! ## The second half -/

theorem MapOk.nodup_vals {m : StrMap} (h : MapOk m) : (m.map Prod.snd).Nodup :=
  h.vals.nodup_iff.2 List.nodup_range

theorem MapOk.val_lt {m : StrMap} (h : MapOk m) {p : List Nat × Nat} (hp : p ∈ m) : p.2 < m.length := by
  have : p.2 ∈ List.range m.length := h.vals.mem_iff.1 (List.mem_map.2 ⟨p, hp, rfl⟩)
  simpa using this

theorem nodup_map_inj {α β : Type} {f : α → β} : ∀ {l : List α}, (l.map f).Nodup → ∀ {a b : α}, a ∈ l → b ∈ l →
    f a = f b → a = b
  | x :: l, hn, a, b, ha, hb, e => by
    rw [List.map_cons, List.nodup_cons] at hn
    rcases List.mem_cons.1 ha with ha1 | ha1
    · rcases List.mem_cons.1 hb with hb1 | hb1
      · rw [ha1, hb1]
      · subst ha1
        exact absurd (List.mem_map.2 ⟨b, hb1, e.symm⟩) hn.1
    · rcases List.mem_cons.1 hb with hb1 | hb1
      · subst hb1
        exact absurd (List.mem_map.2 ⟨a, ha1, e⟩) hn.1
      · exact nodup_map_inj hn.2 ha1 hb1 e

theorem idOf_inj {m : StrMap} (h : MapOk m) {v w : List Nat} (hv : v ∈ m.map Prod.fst) (hw : w ∈ m.map Prod.fst)
    (e : idOf m v = idOf m w) : v = w := by
  rw [← mapFind_isSome] at hv hw
  obtain ⟨i, ei⟩ := Option.isSome_iff_exists.1 hv
  obtain ⟨j, ej⟩ := Option.isSome_iff_exists.1 hw
  unfold idOf at e
  rw [ei, ej] at e
  simp only [Option.getD_some] at e
  subst e
  have := nodup_map_inj h.nodup_vals (mapFind_mem ei) (mapFind_mem ej) rfl
  injection this

/-- Words numbered by a map get their places as new numbers. -/
theorem finishGlyphs_ok {wm : StrMap} (h : MapOk wm) (hsz : ((wm.map Prod.fst).map room).sum < W32)
    (hl : ∀ w, (wm.map Prod.fst).getLast? = some w → w.length % 4 ≠ 0) (gs : List (List (List Nat × Nat)))
    (hgs : ∀ g ∈ gs, ∀ v ∈ g, v.1 ∈ wm.map Prod.fst) :
    ∃ b, finishGlyphs (gs.map (List.map fun v => ⟨idOf wm v.1, v.2⟩)) wm =
        .ok ⟨gs.map (List.map fun v => ⟨place (wm.map Prod.fst) v.1, v.2⟩), b, ((wm.map Prod.fst).map room).sum⟩ ∧
      Blocks (wm.map Prod.fst) b := by
  obtain ⟨v', e1, e2, e3, _⟩ := reindexLoop_ok wm (List.replicate wm.length 0) 0
    (fun p hp => by simpa using h.val_lt hp) h.nodup_vals h.sorted.nodup (by omega)
  obtain ⟨b, e4, e5⟩ := fillWords_ok wm [] (List.replicate (4 * ((wm.map Prod.fst).map room).sum) none) 0 (by simp)
    (by simp) hl
  refine ⟨b, ?_, e5⟩
  rw [List.nil_append, List.nil_append] at e4
  unfold finishGlyphs
  rw [e1, Res.ok_bind]
  have e6 : reindexAll v' (gs.map (List.map fun v => ⟨idOf wm v.1, v.2⟩)) =
      .ok (gs.map (List.map fun v => ⟨place (wm.map Prod.fst) v.1, v.2⟩)) := by
    rw [reindexAll_ok (f := fun i => (v'[i]?).getD 0)]
    · rw [List.map_map]
      congr 1
      apply List.map_congr_left
      intro g hg
      simp only [Function.comp_apply, List.map_map]
      apply List.map_congr_left
      intro v hv
      have hm := hgs g hg v hv
      rw [← mapFind_isSome] at hm
      obtain ⟨i, ei⟩ := Option.isSome_iff_exists.1 hm
      have := e3 _ (mapFind_mem ei)
      simp only [Nat.zero_add] at this
      simp only [Function.comp_apply, idOf, ei, Option.getD_some, this]
    · intro g hg x hx
      obtain ⟨g', hg', rfl⟩ := List.mem_map.1 hg
      obtain ⟨v, hv, rfl⟩ := List.mem_map.1 hx
      have hm := hgs g' hg' v hv
      rw [← mapFind_isSome] at hm
      obtain ⟨i, ei⟩ := Option.isSome_iff_exists.1 hm
      have := e3 _ (mapFind_mem ei)
      simp only [idOf, ei, Option.getD_some, this]
  rw [e6, Res.ok_bind]
  simp only [Nat.zero_add]
  rw [e4]
  rfl

theorem finishGlyphs_ub {wm : StrMap} (h : MapOk wm) (hsz : ((wm.map Prod.fst).map room).sum < W32)
    {w : List Nat} (hl : (wm.map Prod.fst).getLast? = some w) (h4 : w.length % 4 = 0)
    (gs : List (List (List Nat × Nat))) (hgs : ∀ g ∈ gs, ∀ v ∈ g, v.1 ∈ wm.map Prod.fst) :
    finishGlyphs (gs.map (List.map fun v => ⟨idOf wm v.1, v.2⟩)) wm = .ub := by
  obtain ⟨v', e1, e2, e3, _⟩ := reindexLoop_ok wm (List.replicate wm.length 0) 0
    (fun p hp => by simpa using h.val_lt hp) h.nodup_vals h.sorted.nodup (by omega)
  have e4 := fillWords_ub wm [] (List.replicate (4 * ((wm.map Prod.fst).map room).sum) none) 0 (by simp)
    (by simp) w hl h4
  rw [List.nil_append] at e4
  unfold finishGlyphs
  rw [e1, Res.ok_bind]
  rw [reindexAll_ok (f := fun i => (v'[i]?).getD 0)]
  · rw [Res.ok_bind]
    simp only [Nat.zero_add]
    rw [e4, Res.ub_bind]
  · intro g hg x hx
    obtain ⟨g', hg', rfl⟩ := List.mem_map.1 hg
    obtain ⟨v, hv, rfl⟩ := List.mem_map.1 hx
    have hm := hgs g' hg' v hv
    rw [← mapFind_isSome] at hm
    obtain ⟨i, ei⟩ := Option.isSome_iff_exists.1 hm
    have := e3 _ (mapFind_mem ei)
    simp only [idOf, ei, Option.getD_some, this]

/-- The room of distinct words is at most that of a list that contains them. -/
theorem sum_room_le : ∀ {a b : List (List Nat)}, a.Nodup → (∀ w ∈ a, w ∈ b) →
    (a.map room).sum ≤ (b.map room).sum
  | [], _, _, _ => by simp
  | w :: a, b, hn, h => by
    have hw := h w (by simp)
    have hp := List.perm_cons_erase hw
    rw [(hp.map room).sum_nat, List.map_cons, List.map_cons, List.sum_cons, List.sum_cons]
    have := sum_room_le (a := a) (b := b.erase w) (List.nodup_cons.1 hn).2 (by
      intro v hv
      rw [List.mem_erase_of_ne]
      · exact h v (by simp [hv])
      · rintro rfl
        exact (List.nodup_cons.1 hn).1 hv)
    omega

theorem length_le_room (l : List (List Nat)) : l.length ≤ (l.map room).sum := by
  induction l with
  | nil => simp
  | cons w l ih =>
    simp only [List.length_cons, List.map_cons, List.sum_cons]
    have : 1 ≤ room w := by unfold room; omega
    omega

/-! ## Looking for a word -/

/-- Comparing with memory that begins with `w` and a NUL: like comparing with `w`, up to the size of `s`. -/
theorem memCmp_word : ∀ (s w : List Nat) (m : List (Option Nat)), (∀ c ∈ s, c ≠ 0) →
    memCmp s (w.map some ++ some 0 :: m) =
      .ok (if s <+: w then 0 else if wordLt s w then -1 else 1)
  | [], w, m, _ => by simp [memCmp]
  | c :: s, [], m, h => by
    have hc : c ≠ 0 := h c (by simp)
    simp [memCmp, wordLt]
    omega
  | c :: s, d :: w, m, h => by
    have ih := memCmp_word s w m fun x hx => h x (by simp [hx])
    simp only [List.map_cons, List.cons_append, memCmp, List.cons_prefix_cons]
    rcases Nat.lt_trichotomy c d with hlt | he | hgt
    · have hw : wordLt (c :: s) (d :: w) = true := by simp [wordLt, hlt]
      rw [if_pos hlt, if_neg (by omega), if_pos hw]
    · subst he
      have hw : wordLt (c :: s) (c :: w) = wordLt s w := by simp [wordLt]
      rw [if_neg (by omega), if_neg (by omega), ih, hw]
      simp only [true_and]
    · have hw : wordLt (c :: s) (d :: w) = false := by simp [wordLt]; omega
      rw [if_neg (by omega), if_pos hgt, if_neg (by omega), hw]
      rfl

/-- A word of a size that is a multiple of 4 is followed by other memory; that only matters for longer `s`. -/
theorem memCmp_short : ∀ (s w : List Nat) (m : List (Option Nat)), ¬ w <+: s ∨ s = w →
    memCmp s (w.map some ++ m) =
      .ok (if s <+: w then 0 else if wordLt s w then -1 else 1)
  | [], w, m, _ => by simp [memCmp]
  | c :: s, [], m, h => by simp at h
  | c :: s, d :: w, m, h => by
    simp only [List.map_cons, List.cons_append, memCmp, List.cons_prefix_cons]
    rcases Nat.lt_trichotomy c d with hlt | he | hgt
    · have hw : wordLt (c :: s) (d :: w) = true := by simp [wordLt, hlt]
      rw [if_pos hlt, if_neg (by omega), if_pos hw]
    · subst he
      have hw : wordLt (c :: s) (c :: w) = wordLt s w := by simp [wordLt]
      rw [if_neg (by omega), if_neg (by omega), memCmp_short s w m (by simpa using h), hw]
      simp only [true_and]
    · have hw : wordLt (c :: s) (d :: w) = false := by simp [wordLt]; omega
      rw [if_neg (by omega), if_pos hgt, if_neg (by omega), hw]
      rfl

/-- The first word that begins with `s`, by its position. -/
theorem find?_prefix_eq {s w : List Nat} {ws : List (List Nat)} (hi : Increasing (w :: ws)) (h : wordLt s w = true)
    (hp : ¬ s <+: w) : ∀ v ∈ w :: ws, ¬ s <+: v := by
  have key : ∀ v, wordLt w v = true → wordLt s w = true → ¬ s <+: w → ¬ s <+: v := by
    clear hi h hp ws
    induction s generalizing w with
    | nil => intro v _ _ h; exact absurd (List.nil_prefix) h
    | cons c s ih =>
      intro v h1 h2 h3
      cases w with
      | nil => simp [wordLt] at h2
      | cons d w =>
        cases v with
        | nil => simp
        | cons x v =>
          rw [List.cons_prefix_cons] at h3 ⊢
          rintro ⟨e, hpre⟩
          subst e
          simp only [wordLt, Bool.or_eq_true, Bool.and_eq_true, decide_eq_true_eq] at h1 h2
          rcases h2 with h2 | ⟨h2, h2'⟩
          · rcases h1 with h1 | ⟨h1, h1'⟩ <;> omega
          · subst h2
            rcases h1 with h1 | ⟨_, h1'⟩
            · omega
            · exact ih v h1' h2' (fun h => h3 ⟨rfl, h⟩) hpre
  intro v hv
  rcases List.mem_cons.1 hv with rfl | hv
  · exact hp
  · exact key v ((List.pairwise_cons.1 hi).1 v hv) h hp

/-- The result of the search, from the position `i` of the words `ws` on. -/
def searchFrom (s : List Nat) : List (List Nat) → Nat → Nat
  | [], _ => noIndex
  | w :: ws, i => if s <+: w then i else searchFrom s ws (i + room w)

theorem searchFrom_none {s : List Nat} : ∀ {ws : List (List Nat)} {i : Nat}, (∀ v ∈ ws, ¬ s <+: v) →
    searchFrom s ws i = noIndex
  | [], _, _ => rfl
  | w :: ws, i, h => by
    unfold searchFrom
    rw [if_neg (h w (by simp)), searchFrom_none fun v hv => h v (by simp [hv])]

theorem wordIndexLoop_ok {s : List Nat} (hs : ∀ c ∈ s, c ≠ 0) : ∀ (ws : List (List Nat)) (done rest : List (Option Nat))
    (views : List (List View)) (i fuel : Nat),
    done.length = 4 * i → Blocks ws rest → Increasing ws → i + (ws.map room).sum < W32 → ws.length < fuel →
    (∀ w ∈ ws, w.length % 4 = 0 → ¬ w <+: s ∨ s = w) → (∀ w ∈ ws, w.length < W32) →
    ((∀ w, ws.getLast? = some w → s.length ≤ 4 * ((w.length + 3) / 4)) ∨ s ∈ ws) →
    wordIndexLoop ⟨views, done ++ rest, i + (ws.map room).sum⟩ s fuel i = .ok (searchFrom s ws i)
  | _, _, _, _, _, 0, _, _, _, _, h, _, _, _ => by omega
  | [], done, rest, views, i, fuel + 1, _, _, _, _, _, _, _, _ => by
    rw [wordIndexLoop]
    simp [searchFrom]
  | w :: ws, done, _, views, i, fuel + 1, hd, .cons _ _ pad rest hp hn hb, hi, hsz, hf, h4, h32, hl => by
    have hr := room_bytes w
    have hbl := hb.length
    simp only [List.map_cons, List.sum_cons] at hsz
    have hroom : 0 < room w := by unfold room; omega
    have l4 : ((le4 w.length).map some).length = 4 := rfl
    -- the memory is long enough
    have hroom_le : ∀ u ∈ ws, room u ≤ (ws.map room).sum := fun u hu =>
      le_sum_of_mem_nat (List.mem_map.2 ⟨u, hu, rfl⟩)
    have hlong : s.length ≤ w.length + padLen w + rest.length := by
      rcases hl with hl | hl
      · cases hlast : ws.getLast? with
        | none =>
          have hws : ws = [] := by simpa using hlast
          subst hws
          have := hl w rfl
          rw [room] at hr
          omega
        | some u =>
          have h1 := hl u (by
            cases ws with
            | nil => simp at hlast
            | cons v ws => rw [List.getLast?_cons_cons]; exact hlast)
          have h3 := hroom_le u (List.mem_of_getLast? hlast)
          rw [show room u = 1 + (u.length + 3) / 4 from rfl] at h3
          omega
      · rcases List.mem_cons.1 hl with hl | hl
        · rw [hl]; omega
        · have h3 := hroom_le s hl
          rw [show room s = 1 + (s.length + 3) / 4 from rfl] at h3
          omega
    have hcmp : wordCompare (done ++ ((le4 w.length).map some ++ (w.map some ++ (pad ++ rest)))) s i =
        .ok (if s <+: w then 0 else if wordLt s w then -1 else 1) := by
      unfold wordCompare
      rw [if_pos (by simp only [List.length_append, List.length_map, hd, hp] at l4 ⊢; omega)]
      have hdrop : (done ++ ((le4 w.length).map some ++ (w.map some ++ (pad ++ rest)))).drop (4 * i + 4) =
          w.map some ++ (pad ++ rest) := by
        rw [← hd, List.drop_append, List.drop_of_length_le (by omega), List.nil_append,
          show done.length + 4 - done.length = 4 by omega, List.drop_append, List.drop_of_length_le (by omega), l4]
        rfl
      rw [hdrop]
      by_cases hw4 : w.length % 4 = 0
      · exact memCmp_short s w _ (h4 w (by simp) hw4)
      · have := hn hw4
        cases pad with
        | nil => simp at this
        | cons y pad =>
          simp only [List.head?_cons, Option.some.injEq] at this
          subst this
          exact memCmp_word s w _ hs
    rw [wordIndexLoop]
    simp only [List.map_cons, List.sum_cons]
    rw [if_pos (by omega), hcmp, Res.ok_bind]
    by_cases hpre : s <+: w
    · rw [if_pos hpre, searchFrom, if_pos hpre]
      simp
    · rw [if_neg hpre]
      by_cases hlt : wordLt s w = true
      · rw [if_pos hlt, searchFrom_none (find?_prefix_eq hi hlt hpre)]
        simp
      · have hholds : Holds (done ++ ((le4 w.length).map some ++ (w.map some ++ (pad ++ rest)))) i w := by
          constructor
          · intro k hk
            rw [← hd, List.getElem?_append_right (by omega), List.getElem?_append_left (by rw [l4]; omega),
              Nat.add_sub_cancel_left, List.getElem?_map, le4_get _ _ hk]
            rfl
          · intro k c hk
            have hkl : k < w.length := by
              rcases Nat.lt_or_ge k w.length with h | h
              · exact h
              · rw [List.getElem?_eq_none h] at hk
                simp at hk
            rw [← hd, List.getElem?_append_right (by omega), List.getElem?_append_right (by rw [l4]; omega),
              List.getElem?_append_left (by simp only [List.length_map] at l4 ⊢; omega), l4,
              show done.length + 4 + k - done.length - 4 = k by omega, List.getElem?_map, hk]
            rfl
        have hmod : (i + (w.length + 4 * 2 - 1) / 4) % W32 = i + room w := by
          have : (w.length + 4 * 2 - 1) / 4 = room w := by unfold room; omega
          rw [this]
          exact Nat.mod_eq_of_lt (by omega)
        have hw32 : w.length < W32 := h32 w (by simp)
        rw [if_neg hlt, if_neg (by decide), wordSize_of hholds hw32, Res.ok_bind, hmod, searchFrom, if_neg hpre]
        have ih := wordIndexLoop_ok hs ws (done ++ ((le4 w.length).map some ++ (w.map some ++ pad))) rest views
          (i + room w) fuel (by simp only [List.length_append, List.length_map, hd, hp] at l4 ⊢; omega) hb
          (List.pairwise_cons.1 hi).2 (by omega) (by simpa using hf) (fun v hv => h4 v (by simp [hv]))
          (fun v hv => h32 v (by simp [hv])) (by
            rcases hl with hl | hl
            · left
              intro u hu
              apply hl u
              cases ws with
              | nil => simp at hu
              | cons v ws => rw [List.getLast?_cons_cons]; exact hu
            · right
              rcases List.mem_cons.1 hl with hl | hl
              · exact absurd (by rw [hl]; exact List.prefix_refl _) hpre
              · exact hl)
        rw [← ih]
        simp only [List.append_assoc, Nat.add_assoc]

/-- The first word that begins with `s`, in terms of places. -/
theorem searchFrom_eq {s : List Nat} : ∀ (ws : List (List Nat)) (i : Nat), ws.Nodup →
    searchFrom s ws i = match ws.find? (fun w => decide (s <+: w)) with
      | none => noIndex
      | some w => i + place ws w
  | [], _, _ => rfl
  | w :: ws, i, hn => by
    have hn' := List.nodup_cons.1 hn
    unfold searchFrom
    rw [List.find?_cons]
    by_cases h : s <+: w
    · rw [if_pos h, decide_eq_true h]
      simp [place]
    · rw [if_neg h, decide_eq_false h, searchFrom_eq ws _ hn'.2]
      cases e : ws.find? (fun w => decide (s <+: w)) with
      | none => rfl
      | some v =>
        have hv := List.mem_of_find?_eq_some e
        have : w ≠ v := by rintro rfl; exact hn'.1 hv
        simp only [place, if_neg this]
        omega

theorem wordLt_prefix : ∀ {s w : List Nat}, s <+: w → s = w ∨ wordLt s w = true
  | [], [], _ => .inl rfl
  | [], _ :: _, _ => .inr rfl
  | c :: s, [], h => by simp at h
  | c :: s, d :: w, h => by
    rw [List.cons_prefix_cons] at h
    obtain ⟨rfl, h⟩ := h
    rcases wordLt_prefix h with rfl | h
    · exact .inl rfl
    · exact .inr (by simp [wordLt, h])

/-- A stored word is the first that begins with it. -/
theorem find?_stored {s : List Nat} : ∀ {ws : List (List Nat)}, Increasing ws → s ∈ ws →
    ws.find? (fun w => decide (s <+: w)) = some s
  | w :: ws, hi, h => by
    have hi' := List.pairwise_cons.1 hi
    rw [List.find?_cons]
    rcases List.mem_cons.1 h with rfl | h
    · rw [decide_eq_true (List.prefix_refl s)]
    · rw [decide_eq_false, find?_stored hi'.2 h]
      intro hp
      have h1 := hi'.1 s h
      rcases wordLt_prefix hp with rfl | h2
      · rw [wordLt_irrefl] at h1
        exact absurd h1 (by simp)
      · rw [wordLt_asymm h1] at h2
        exact absurd h2 (by simp)

end Ppocr

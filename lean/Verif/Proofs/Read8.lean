import Verif.Proofs.Letter8

/-! # Helper lemmas: the reading of a letter in `extract_text8` -/

namespace Ppocr
open Spec Props

/-! ## Sorting -/

section
variable {P : Type} [LawfulProb8 P]

/-- The order of candidates: by their words, the more probable ones first. -/
def ShowLt8 (words : List Words) (a b : Nat × P) : Prop :=
  WordsLt (words.getD a.1 []) (words.getD b.1 []) ∨ (words.getD a.1 [] = words.getD b.1 [] ∧ Prob8.le a.2 b.2 = false)

theorem ltShow8_ok {words : List Words} {a b : Nat × P} (ha : a.1 < words.length) (hb : b.1 < words.length) :
    ∃ v, ltShow Prob8.less words a b = .ok v ∧ (v = true ↔ ShowLt8 words a b) := by
  have e1 : words.getD a.1 [] = words[a.1] := getD_of_lt ha
  have e2 : words.getD b.1 [] = words[b.1] := getD_of_lt hb
  unfold ltShow ShowLt8
  rw [rd_of_lt ha, Res.ok_bind, rd_of_lt hb, Res.ok_bind, e1, e2]
  by_cases h1 : words[a.1].length < words[b.1].length
  · rw [if_pos h1]
    exact ⟨true, rfl, by simp [WordsLt, h1]⟩
  · rw [if_neg h1]
    by_cases h2 : words[a.1].length > words[b.1].length
    · rw [if_pos h2]
      refine ⟨false, rfl, by simp, ?_⟩
      rintro ((h | h) | h)
      · omega
      · omega
      · rw [h.1] at h2; omega
    · rw [if_neg h2]
      have hl : words[a.1].length = words[b.1].length := by omega
      refine ⟨_, rfl, ?_⟩
      cases hm : mismatchLt words[a.1] words[b.1] with
      | none =>
        have := (mismatch_none _ _ hl).1 hm
        rw [Option.getD_none, this]
        unfold Prob8.less
        constructor
        · intro h
          exact .inr ⟨rfl, by simpa using h⟩
        · rintro (h | ⟨_, h3⟩)
          · exact absurd h (wordsLt_irrefl _)
          · rw [h3]; rfl
      | some v =>
        rw [Option.getD_some]
        constructor
        · rintro rfl; exact .inl (.inr ⟨hl, hm⟩)
        · rintro ((h | ⟨_, h⟩) | ⟨h, _⟩)
          · omega
          · rw [hm] at h; simpa using h
          · rw [(mismatch_none _ _ hl).2 h] at hm; cases hm

theorem gt_irr8 (p : P) : ¬ Prob8.le p p = false := by rw [le_refl8]; simp

theorem gt_trans8 {p q r : P} (h1 : Prob8.le p q = false) (h2 : Prob8.le q r = false) : Prob8.le p r = false := by
  cases h : Prob8.le p r with
  | false => rfl
  | true =>
    have := LawfulProb8.total _ _ h2
    rw [LawfulProb8.trans _ _ _ h this] at h1; cases h1

theorem gt_inc8 {p q : P} (h1 : ¬ Prob8.le p q = false) : Prob8.le p q = true := by simpa using h1

theorem showLt8_irr (words : List Words) (a : Nat × P) : ¬ ShowLt8 words a a := by
  rintro (h | ⟨_, h⟩)
  · exact wordsLt_irrefl _ h
  · exact gt_irr8 _ h

theorem showLt8_trans {words : List Words} {a b c : Nat × P} (h1 : ShowLt8 words a b)
    (h2 : ShowLt8 words b c) : ShowLt8 words a c := by
  unfold ShowLt8 at *
  rcases h1 with h1 | ⟨e1, h1⟩ <;> rcases h2 with h2 | ⟨e2, h2⟩
  · exact .inl (wordsLt_trans h1 h2)
  · exact .inl (e2 ▸ h1)
  · exact .inl (e1 ▸ h2)
  · exact .inr ⟨e1.trans e2, gt_trans8 h1 h2⟩

theorem showLt8_inc {words : List Words} {a b : Nat × P} (h1 : ¬ ShowLt8 words a b) (h2 : ¬ ShowLt8 words b a) :
    words.getD a.1 [] = words.getD b.1 [] ∧ Prob8.le a.2 b.2 = true ∧ Prob8.le b.2 a.2 = true := by
  unfold ShowLt8 at *
  rcases wordsLt_total (words.getD a.1 []) (words.getD b.1 []) with h | h | h
  · exact absurd (.inl h) h1
  · exact ⟨h, gt_inc8 fun hf => h1 (.inr ⟨h, hf⟩), gt_inc8 fun hf => h2 (.inr ⟨h.symm, hf⟩)⟩
  · exact absurd (.inl h) h2

theorem sortShow8_ok (S : StdSort) {words : List Words} {ps : List (Nat × P)} (hl : ∀ q ∈ ps, q.1 < words.length) :
    ∃ r, sortShow S Prob8.less words ps = .ok r ∧ (∀ q ∈ r, q ∈ ps) ∧ (r.Pairwise fun a b => Prob8.le b.2 a.2 = true) ∧
      ∀ q ∈ ps, ∃ q' ∈ r, words.getD q'.1 [] = words.getD q.1 [] ∧ Prob8.le q.2 q'.2 = true := by
  unfold sortShow
  cases hps : ps with
  | nil => exact ⟨[], rfl, by simp, .nil, by simp⟩
  | cons p0 ps0 =>
    rw [if_neg (by simp), ← hps]
    obtain ⟨l, e1, hp1, hs1⟩ := sortRes_ok (S := S) (lt := ltShow Prob8.less words) (l := ps) (ShowLt8 words)
      (fun a ha b hb => ltShow8_ok (hl a ha) (hl b hb))
      (fun a _ => showLt8_irr words a) (fun _ _ _ _ _ _ h1 h2 => showLt8_trans h1 h2)
      (by
        intro a _ b _ c _ h1 h2 h3 h4
        obtain ⟨x1, x2, x3⟩ := showLt8_inc h1 h2
        obtain ⟨y1, y2, y3⟩ := showLt8_inc h3 h4
        constructor
        · rintro (h | ⟨_, h5⟩)
          · rw [x1, y1] at h; exact wordsLt_irrefl _ h
          · rw [LawfulProb8.trans _ _ _ x2 y2] at h5; cases h5
        · rintro (h | ⟨_, h5⟩)
          · rw [x1, y1] at h; exact wordsLt_irrefl _ h
          · rw [LawfulProb8.trans _ _ _ y3 x3] at h5; cases h5)
    obtain ⟨u, e2, hu, hcov⟩ : ∃ u, uniqueBy (fun a b : Nat × P => do
          let v1 ← rd words a.1
          let v2 ← rd words b.1
          return decide (v1 = v2)) l = .ok u ∧ u.Sublist l ∧ ∀ x ∈ l, ∃ y ∈ u, words.getD y.1 [] = words.getD x.1 [] ∧
            ¬ ShowLt8 words x y := by
      cases l with
      | nil => exact ⟨[], rfl, List.Sublist.refl _, by simp⟩
      | cons a l =>
        obtain ⟨u, e, _, h1, h2⟩ := uniqueFrom_key (κ := Words) (eq := fun a b : Nat × P => do
          let v1 ← rd words a.1
          let v2 ← rd words b.1
          return decide (v1 = v2)) (f := fun q => words.getD q.1 []) (Q := fun y x => ¬ ShowLt8 words x y)
          (fun a => showLt8_irr words a) l a (by
            intro x hx y hy
            have hx' := hl x (hp1.mem_iff.1 hx)
            have hy' := hl y (hp1.mem_iff.1 hy)
            rw [rd_of_lt hx', Res.ok_bind, rd_of_lt hy', Res.ok_bind, getD_of_lt hx', getD_of_lt hy']
            rfl) hs1
        exact ⟨u, e, h1, h2⟩
    have hum : ∀ q ∈ u, q ∈ ps := fun q hq => hp1.mem_iff.1 (hu.mem hq)
    obtain ⟨r, e3, hp3, hs3⟩ := sortRes_ok (S := S) (lt := fun a b : Nat × P => .ok (Prob8.less b.2 a.2)) (l := u)
      (fun a b => Prob8.le a.2 b.2 = false)
      (by
        intro a _ b _
        refine ⟨_, rfl, ?_⟩
        unfold Prob8.less
        simp)
      (fun a _ => gt_irr8 a.2)
      (fun a _ b _ c _ h1 h2 => gt_trans8 h1 h2)
      (by
        intro a _ b _ c _ h1 h2 h3 h4
        have x2 := gt_inc8 h1
        have x3 := gt_inc8 h2
        have y2 := gt_inc8 h3
        have y3 := gt_inc8 h4
        rw [LawfulProb8.trans _ _ _ x2 y2, LawfulProb8.trans _ _ _ y3 x3]
        simp)
    refine ⟨r, by rw [e1, Res.ok_bind, e2, Res.ok_bind, e3], fun q hq => hum q (hp3.mem_iff.1 hq), ?_, ?_⟩
    · exact hs3.imp fun h => gt_inc8 h
    · intro q hq
      obtain ⟨y, hy, h1, h2⟩ := hcov q (hp1.mem_iff.2 hq)
      exact ⟨y, hp3.mem_iff.2 hy, h1, gt_inc8 fun hf => h2 (.inr ⟨h1.symm, hf⟩)⟩

end

/-! ## Complex strategies -/

section
variable {P : Type} [Prob8 P] {imgs : List Image} {d : Datas}

theorem complexLoop8_ok {V : Type} {rel : Rel V} {tab : List V} {value : V} {X : Nat → Nat} :
    ∀ ps : List (Nat × P), (∀ p ∈ ps, ∃ v, rd tab p.1 = .ok v ∧ rel.compute v value = .ok (X p.1)) →
    complexLoop Prob8.scale rel tab value ps = .ok ((ps.filter fun p => decide (uadd (usub rel.count 1) 1 / 2 ≤ X p.1)).map
      fun p => (p.1, Prob8.scale p.2 (X p.1) (usub rel.count 1))) := by
  intro ps
  induction ps with
  | nil => intro _; rfl
  | cons p ps ih =>
    intro h
    obtain ⟨v, e1, e2⟩ := h p (by simp)
    rw [complexLoop]
    rw [e1, Res.ok_bind, e2, Res.ok_bind, ih (fun q hq => h q (by simp [hq])), Res.ok_bind, List.filter_cons]
    by_cases hx : uadd (usub rel.count 1) 1 / 2 ≤ X p.1
    · rw [if_pos hx, if_pos (by simpa using hx)]; rfl
    · rw [if_neg hx, if_neg (by simpa using hx)]; rfl

theorem hbar_loop8 (h : Learnt imgs d) (hi : ∀ i ∈ imgs, Sized i) {a r : Image} (ha : Sized a) (hr : a.rotate90 = .ok r) {p : Policy}
    (hp : (Feat.hbar, p) ∈ registered) : ∃ v, (d.strat6 (.hbar, p)).load a r = .ok v ∧ ∀ ps : List (Nat × P),
      (∀ q ∈ ps, q.1 < imgs.length) →
      ∃ k : Nat → Bool, complexLoop Prob8.scale (d.strat6 (.hbar, p)).rel (d.strat6 (.hbar, p)).tab v ps =
          .ok ((ps.filter fun q => k q.1).map fun q => (q.1, Prob8.scale q.2 1 1)) ∧
        ∀ (j : Nat) (i ri : Image), imgs[j]? = some i → i.rotate90 = .ok ri →
          (k j = true ↔ feature (.hbar, p) i ri = feature (.hbar, .img) a r) := by
  obtain ⟨n, e⟩ := feature_hbar ha (ha.rotated hr) .img
  refine ⟨n, ?_, ?_⟩
  · show (do return (← toolLoad (.hbar, p) a r).toNum : Res Nat) = _
    rw [toolLoad_eq, e]; rfl
  · intro ps hl
    have hent : ∀ (j : Nat) (i ri : Image), imgs[j]? = some i → i.rotate90 = .ok ri →
        ∃ x, feature (.hbar, p) i ri = .ok (.num x) ∧ rd ((d.get (.hbar, p)).map Value.toNum) j = .ok x := by
      intro j i ri hj hri
      have hs := hi i (List.mem_of_getElem? hj)
      obtain ⟨x, ex⟩ := feature_hbar hs (hs.rotated hri) p
      exact ⟨x, ex, get_entry h hp hj hri ex Value.toNum⟩
    let k : Nat → Bool := fun j => decide (((d.get (.hbar, p)).map Value.toNum)[j]? = some n)
    have key := complexLoop8_ok (P := P) (rel := (d.strat6 (.hbar, p)).rel) (tab := (d.strat6 (.hbar, p)).tab) (value := n)
      (X := fun j => if k j then 1 else 0) ps (by
        intro q hq
        have hql := hl q hq
        obtain ⟨ri, hri, _⟩ := (hi _ (List.getElem_mem hql)).rotate
        obtain ⟨x, ex, et⟩ := hent q.1 _ ri (List.getElem?_eq_getElem hql) hri
        refine ⟨x, et, ?_⟩
        have hg := rd_eq_ok.1 et
        show Res.ok (if x = n then 1 else 0) = Res.ok (if decide (((d.get (.hbar, p)).map Value.toNum)[q.1]? = some n) = true then 1 else 0)
        rw [hg]
        simp)
    refine ⟨k, ?_, ?_⟩
    · rw [key]
      have h12 : uadd (usub (d.strat6 (.hbar, p)).rel.count 1) 1 / 2 = 1 := by show uadd (usub 2 1) 1 / 2 = 1; decide
      have h11 : usub (d.strat6 (.hbar, p)).rel.count 1 = 1 := by show usub 2 1 = 1; decide
      rw [h12, h11]
      have hf : (fun q : Nat × P => decide (1 ≤ if k q.1 = true then 1 else 0)) = fun q => k q.1 := by
        funext q
        cases k q.1 <;> rfl
      rw [hf]
      refine congrArg Res.ok (List.map_congr_left ?_)
      intro q hq
      rw [if_pos (List.mem_filter.1 hq).2]
    · intro j i ri hj hri
      obtain ⟨x, ex, et⟩ := hent j i ri hj hri
      rw [ex, e]
      show decide (((d.get (.hbar, p)).map Value.toNum)[j]? = some n) = true ↔ _
      rw [rd_eq_ok.1 et]
      simp

theorem alternations_loop8 (h : Learnt imgs d) (hi : ∀ i ∈ imgs, Sized i) {a r : Image} (ha : Sized a) (hr : a.rotate90 = .ok r) :
    ∃ v, (d.strat6 (.alternations, .img)).load a r = .ok v ∧ ∀ ps : List (Nat × P),
      (∀ q ∈ ps, q.1 < imgs.length) →
      ∃ (k : Nat → Bool) (n : Nat → Nat), complexLoop Prob8.scale (d.strat6 (.alternations, .img)).rel (d.strat6 (.alternations, .img)).tab v ps =
          .ok ((ps.filter fun q => k q.1).map fun q => (q.1, Prob8.scale q.2 (n q.1 * 100 / 7) 100)) ∧
        ∀ (j : Nat) (i ri : Image), imgs[j]? = some i → i.rotate90 = .ok ri → n j = sameAlts i a ∧
          (k j = true ↔ ∃ x y, feature (.alternations, .img) i ri = .ok (.alt x) ∧
            feature (.alternations, .img) a r = .ok (.alt y) ∧ 4 ≤ agree x y) := by
  obtain ⟨y, e, hy⟩ := feature_alternations ha (ha.rotated hr)
  have hreg : (Feat.alternations, Policy.img) ∈ registered := by decide
  refine ⟨y, ?_, ?_⟩
  · show (do return (← toolLoad (.alternations, .img) a r).toAlt : Res _) = _
    rw [toolLoad_eq, e]; rfl
  · intro ps hl
    have hent : ∀ (j : Nat) (i ri : Image), imgs[j]? = some i → i.rotate90 = .ok ri →
        ∃ x, feature (.alternations, .img) i ri = .ok (.alt x) ∧ x.length = 7 ∧
          rd ((d.get (.alternations, .img)).map Value.toAlt) j = .ok x := by
      intro j i ri hj hri
      have hs := hi i (List.mem_of_getElem? hj)
      obtain ⟨x, ex, hx⟩ := feature_alternations hs (hs.rotated hri)
      exact ⟨x, ex, hx, get_entry h hreg hj hri ex Value.toAlt⟩
    let n : Nat → Nat := fun j => agree (((d.get (.alternations, .img)).map Value.toAlt).getD j []) y
    have hn : ∀ (j : Nat) x, rd ((d.get (.alternations, .img)).map Value.toAlt) j = .ok x → n j = agree x y := by
      intro j x ex
      show agree (((d.get (.alternations, .img)).map Value.toAlt).getD j []) y = _
      rw [List.getD_eq_getElem?_getD, rd_eq_ok.1 ex]
      rfl
    have key := complexLoop8_ok (P := P) (rel := (d.strat6 (.alternations, .img)).rel)
      (tab := (d.strat6 (.alternations, .img)).tab) (value := y) (X := fun j => n j * 100 / 7) ps (by
        intro q hq
        have hql := hl q hq
        obtain ⟨ri, hri, _⟩ := (hi _ (List.getElem_mem hql)).rotate
        obtain ⟨x, ex, hx, et⟩ := hent q.1 _ ri (List.getElem?_eq_getElem hql) hri
        obtain ⟨e3, h7⟩ := arrayRel_agree hx hy
        refine ⟨x, et, ?_⟩
        rw [hn _ _ et]
        exact e3)
    refine ⟨fun j => decide (50 ≤ n j * 100 / 7), n, ?_, ?_⟩
    · rw [key]
      have h50 : uadd (usub (d.strat6 (.alternations, .img)).rel.count 1) 1 / 2 = 50 := by show uadd (usub 101 1) 1 / 2 = 50; decide
      have h100 : usub (d.strat6 (.alternations, .img)).rel.count 1 = 100 := by show usub 101 1 = 100; decide
      rw [h50, h100]
    · intro j i ri hj hri
      obtain ⟨x, ex, _, et⟩ := hent j i ri hj hri
      refine ⟨?_, ?_⟩
      · unfold sameAlts
        rw [hri, hr]
        simp only []
        rw [ex, e, hn _ _ et]
      rw [decide_eq_true_iff, hn _ _ et]
      constructor
      · intro h; exact ⟨x, y, ex, e, by omega⟩
      · rintro ⟨x', y', ex', ey', h'⟩
        rw [ex] at ex'; cases ex'
        rw [e] at ey'; cases ey'
        omega

theorem reduceComplex8_ok (h : Learnt imgs d) (hi : ∀ i ∈ imgs, Sized i) {a r : Image} (ha : Sized a) (hr : a.rotate90 = .ok r)
    {ps : List (Nat × P)} (hl : ∀ q ∈ ps, q.1 < imgs.length) :
    ∃ ps', reduceComplex6 Prob8.scale a r (complexStrats.map d.strat6) ps = .ok ps' ∧
      (∀ q ∈ ps', ∃ p ∈ ps, q.1 = p.1 ∧ ∃ i, imgs[q.1]? = some i ∧ Bars6 i a ∧
        q.2 = Prob8.scale (Prob8.scale (Prob8.scale p.2 1 1) 1 1) (sameAlts i a * 100 / 7) 100) ∧
      ∀ p ∈ ps, ∀ i, imgs[p.1]? = some i → Bars6 i a → ∃ q ∈ ps', q.1 = p.1 := by
  obtain ⟨v1, l1, f1⟩ := hbar_loop8 (P := P) h hi ha hr (p := .img) (by decide)
  obtain ⟨v2, l2, f2⟩ := hbar_loop8 (P := P) h hi ha hr (p := .img90) (by decide)
  obtain ⟨v3, l3, f3⟩ := alternations_loop8 (P := P) h hi ha hr
  obtain ⟨k1, e1, b1⟩ := f1 ps hl
  have step : ∀ {l : List (Nat × P)} {k : Nat → Bool} {g : Nat × P → P}, (∀ q ∈ l, q.1 < imgs.length) →
      ∀ q ∈ ((l.filter fun q => k q.1).map fun q => (q.1, g q)), q.1 < imgs.length := by
    intro l k g hl q hq
    obtain ⟨x, hx, rfl⟩ := List.mem_map.1 hq
    exact hl x (List.mem_filter.1 hx).1
  have hl1 := step (k := k1) (g := fun q => Prob8.scale q.2 1 1) hl
  obtain ⟨k2, e2, b2⟩ := f2 _ hl1
  have hl2 := step (k := k2) (g := fun q => Prob8.scale q.2 1 1) hl1
  obtain ⟨k3, n3, e3, b3⟩ := f3 _ hl2
  have el : complexStrats.map d.strat6 = [d.strat6 (.hbar, .img), d.strat6 (.hbar, .img90), d.strat6 (.alternations, .img)] := rfl
  refine ⟨_, by
    rw [el, reduceComplex6, l1, Res.ok_bind, e1, Res.ok_bind, reduceComplex6, l2, Res.ok_bind, e2, Res.ok_bind, reduceComplex6, l3,
      Res.ok_bind, e3, Res.ok_bind]
    rfl, ?_, ?_⟩
  · intro q hq
    obtain ⟨q2, hq2, rfl⟩ := List.mem_map.1 hq
    obtain ⟨hq2, t3⟩ := List.mem_filter.1 hq2
    obtain ⟨q1, hq1, rfl⟩ := List.mem_map.1 hq2
    obtain ⟨hq1, t2⟩ := List.mem_filter.1 hq1
    obtain ⟨q0, hq0, rfl⟩ := List.mem_map.1 hq1
    obtain ⟨hq0, t1⟩ := List.mem_filter.1 hq0
    have hql := hl q0 hq0
    obtain ⟨ri, hri, _⟩ := (hi _ (List.getElem_mem hql)).rotate
    have hg := List.getElem?_eq_getElem hql
    refine ⟨q0, hq0, rfl, _, hg, ⟨ri, r, hri, hr, ?_, (b3 _ _ _ hg hri).2.1 t3⟩, ?_⟩
    · intro p
      cases p with
      | img => exact (b1 _ _ _ hg hri).1 t1
      | img90 => exact (b2 _ _ _ hg hri).1 t2
    · simp only []
      rw [(b3 _ _ _ hg hri).1]
  · rintro p hp i hg ⟨ri, ra, hri, hra, t1, t3⟩
    rw [hr] at hra; cases hra
    refine ⟨_, List.mem_map.2 ⟨_, List.mem_filter.2 ⟨List.mem_map.2 ⟨_, List.mem_filter.2 ⟨List.mem_map.2 ⟨p, List.mem_filter.2 ⟨hp,
      (b1 _ _ _ hg hri).2 (t1 _)⟩, rfl⟩, (b2 _ _ _ hg hri).2 (t1 _)⟩, rfl⟩, (b3 _ _ _ hg hri).2.2 t3⟩, rfl⟩, rfl⟩

end

/-! ## One letter -/

section
variable {P : Type} [LawfulProb8 P] {imgs : List Image} {ws : List Words} {t : Tab8}

theorem letter8_run (S : StdSort) (h : Taught imgs ws t.datas t.byWords) (hw : t.words = ws) (hsm : imgs.length < W32) {a r : Image}
    (ha : Sized a) (hr : a.rotate90 = .ok r) :
    (∃ o, computeLetter8 P S t a r = .ok o ∧ Reads8 P imgs ws a o) ∨ (computeLetter8 P S t a r = .ub ∧ Jam8 imgs ws a) := by
  have eps := candidates8_ok (P := P) h hw hsm ha hr
  let sc : Nat → P := score8 P t.datas (val6 a r)
  have hsc : ∀ {j : Nat} {i : Image}, imgs[j]? = some i → sc j = simpleScore P i a := fun hj => score8_eq h ha hr hj
  generalize hps0 : ((List.range imgs.length).filter (near8 t.datas (val6 a r))).map
    (fun j => (j, score8 P t.datas (val6 a r) j)) = ps at eps
  have hval : ∀ q ∈ ps, q.2 = sc q.1 := by
    intro q hq
    rw [← hps0] at hq
    obtain ⟨j, _, rfl⟩ := List.mem_map.1 hq
    rfl
  have hnear : ∀ q ∈ ps, ∃ i, imgs[q.1]? = some i ∧ Near8 i a := by
    intro q hq
    rw [← hps0] at hq
    obtain ⟨j, hj, rfl⟩ := List.mem_map.1 hq
    obtain ⟨hj, hn⟩ := List.mem_filter.1 hj
    have hlt := List.mem_range.1 hj
    exact ⟨_, List.getElem?_eq_getElem hlt, (near8_iff h ha hr (List.getElem?_eq_getElem hlt)).1 hn⟩
  have hps : ∀ q ∈ ps, q.1 < imgs.length := by
    intro q hq
    obtain ⟨i, hi, _⟩ := hnear q hq
    exact (List.getElem?_eq_some_iff.1 hi).1
  have hnear' : ∀ j i, imgs[j]? = some i → Near8 i a → ∃ q ∈ ps, q.1 = j := by
    intro j i hj hn
    have hlt := (List.getElem?_eq_some_iff.1 hj).1
    refine ⟨(j, sc j), ?_, rfl⟩
    rw [← hps0]
    exact List.mem_map.2 ⟨j, List.mem_filter.2 ⟨List.mem_range.2 hlt, (near8_iff h ha hr hj).2 hn⟩, rfl⟩
  have hwl : t.words.length = imgs.length := by rw [hw, h.len]
  have hword : ∀ j v, ws[j]? = some v ↔ j < imgs.length ∧ t.words.getD j [] = v := by
    intro j v
    rw [hw, List.getD_eq_getElem?_getD]
    constructor
    · intro e
      have := (List.getElem?_eq_some_iff.1 e).1
      rw [h.len] at this
      exact ⟨this, by rw [e]; rfl⟩
    · rintro ⟨h1, h2⟩
      have h1' : j < ws.length := by rw [h.len]; exact h1
      rw [List.getElem?_eq_getElem h1'] at h2 ⊢
      exact congrArg some h2
  have hne : [] ∉ t.words := by rw [hw]; exact h.ne
  obtain ⟨tmp, etmp, hsub, hsort, hcov⟩ := sortShow8_ok S (words := t.words) (ps := ps) (fun q hq => by rw [hwl]; exact hps q hq)
  have hmatch : ∀ {k : Nat} {i : Image}, imgs[k]? = some i → (Prob8.le Prob8.one (sc k) = true ↔ Exact8 i a) := by
    intro k i hk
    rw [hsc hk]
    exact exact8_iff (h.sized i (List.mem_of_getElem? hk)) ha
  have hmps : ∀ k, Match8 imgs a k → ∃ q ∈ ps, q.1 = k := by
    rintro k ⟨i, hk, he⟩
    exact hnear' k i hk (exact_near8 he)
  unfold computeLetter8
  rw [eps, Res.ok_bind, etmp, Res.ok_bind]
  cases tmp with
  | nil =>
    have hps0 : ∀ q, q ∉ ps := by
      intro q hq
      obtain ⟨q', hq', _⟩ := hcov q hq
      cases hq'
    have hno : ∀ i ∈ imgs, ¬ Near8 i a := by
      intro i hi hn
      obtain ⟨j, hj⟩ := List.getElem?_of_mem hi
      obtain ⟨q, hq, _⟩ := hnear' j i hj hn
      exact hps0 q hq
    left
    refine ⟨_, rfl, ?_, by simp, fun _ => ⟨rfl, rfl⟩, .inr ⟨hno, rfl⟩, fun _ => rfl⟩
    intro w
    constructor
    · intro hw; cases hw
    · rintro ⟨g, v, hc, _⟩
      rcases hc with hc | ⟨_, ⟨⟨i, hj, hn, _⟩, _⟩, _⟩
      · obtain ⟨q, hq, _⟩ := hmps g hc
        exact absurd hq (hps0 q)
      · exact absurd hn (hno i (List.mem_of_getElem? hj))
  | cons best rest =>
    have hbest : best ∈ ps := hsub best (by simp)
    have hbl : best.1 < t.words.length := by rw [hwl]; exact hps best hbest
    obtain ⟨r1, er1, hr1⟩ := getWord_ok hne hbl
    obtain ⟨ib, hib, hnb⟩ := hnear best hbest
    have htop : ∀ q ∈ ps, Prob8.le q.2 best.2 = true := by
      intro q hq
      obtain ⟨q', hq', _, e2⟩ := hcov q hq
      rcases List.mem_cons.1 hq' with rfl | hq'
      · exact e2
      · exact LawfulProb8.trans _ _ _ e2 (List.rel_of_pairwise_cons hsort hq')
    simp only []
    rw [er1, Res.ok_bind, hval best hbest]
    have hfirst : ∃ (g : Nat) (i : Image) (v : Words), imgs[g]? = some i ∧ Near8 i a ∧
        (∀ j ∈ imgs, Near8 j a → Prob8.le (simpleScore P j a) (simpleScore P i a) = true) ∧ ws[g]? = some v ∧ v.head? = some r1 := by
      refine ⟨best.1, ib, _, hib, hnb, ?_, (hword _ _).2 ⟨hps best hbest, rfl⟩, hr1⟩
      intro j hj hn
      obtain ⟨k, hk⟩ := List.getElem?_of_mem hj
      obtain ⟨q, hq, rfl⟩ := hnear' k j hk hn
      have := htop q hq
      rw [hval q hq, hval best hbest, hsc hk, hsc hib] at this
      exact this
    cases hb : Prob8.le Prob8.one (sc best.1) with
    | true =>
      rw [if_pos rfl]
      have hg := gather6_ok (words := t.words) (stop := fun p : P => !Prob8.le Prob8.one p)
        (sb := fun j => !Prob8.le Prob8.one (sc j)) (best :: rest)
        (fun q hq => by rw [hwl]; exact hps q (hsub q hq)) (fun q hq => by rw [hval q (hsub q hq)])
        (hsort.imp_of_mem fun {x y} hx hy hxy h1 => by
          cases hy' : Prob8.le Prob8.one (sc y.1) with
          | false => rfl
          | true =>
            rw [hval x (hsub x hx), hval y (hsub y hy)] at hxy
            rw [LawfulProb8.trans _ _ _ hy' hxy] at h1
            cases h1)
      simp only [Bool.not_not] at hg
      rw [hg, Res.ok_bind]
      left
      have hhead : ((List.filter (fun q => Prob8.le Prob8.one (sc q.1)) (best :: rest)).flatMap
          fun q => t.words.getD q.1 []).head? = some r1 := by
        rw [List.filter_cons, if_pos hb]
        exact head_gather hr1
      refine ⟨_, rfl, ?_, fun _ => ⟨rfl, hhead⟩, ?_, .inl hfirst, fun _ => rfl⟩
      · intro w
        simp only [List.mem_flatMap, List.mem_filter]
        have hm1 : ∃ k, Match8 imgs a k := ⟨best.1, ib, hib, (hmatch hib).1 hb⟩
        constructor
        · rintro ⟨q, ⟨hq, hq'⟩, hw⟩
          obtain ⟨i, hi, _⟩ := hnear q (hsub q hq)
          exact ⟨q.1, _, .inl ⟨i, hi, (hmatch hi).1 hq'⟩, (hword _ _).2 ⟨hps q (hsub q hq), rfl⟩, hw⟩
        · rintro ⟨g, v, hc, hgv, hw⟩
          obtain ⟨k, hk⟩ := hm1
          rcases hc with hc | ⟨hc, _⟩
          · obtain ⟨q, hq, rfl⟩ := hmps g hc
            obtain ⟨i, hi, he⟩ := hc
            obtain ⟨q', hq', e1, e2⟩ := hcov q hq
            rw [hval q hq, hval q' (hsub q' hq')] at e2
            refine ⟨q', ⟨hq', LawfulProb8.trans _ _ _ ((hmatch hi).2 he) e2⟩, ?_⟩
            rw [e1, ((hword _ _).1 hgv).2]
            exact hw
          · exact absurd hk (hc k)
      · intro h0
        simp only [] at h0
        rw [h0] at hhead
        cases hhead
    | false =>
      rw [if_neg (by simp)]
      have hnom : ∀ k, ¬ Match8 imgs a k := by
        intro k hk
        obtain ⟨q, hq, rfl⟩ := hmps k hk
        obtain ⟨i, hi, he⟩ := hk
        have := htop q hq
        rw [hval q hq, hval best hbest] at this
        rw [LawfulProb8.trans _ _ _ ((hmatch hi).2 he) this] at hb
        cases hb
      obtain ⟨p1, e1, m1, m2⟩ := reduceComplex8_ok h.learnt h.sized ha hr hps
      have hp1 : ∀ q ∈ p1, ∃ i, imgs[q.1]? = some i ∧ Near8 i a ∧ Bars6 i a ∧ q.2 = fullScore P i a := by
        intro q hq
        obtain ⟨p, hp, ep, i, hi, hb, eq2⟩ := m1 q hq
        obtain ⟨i', hi', hn⟩ := hnear p hp
        rw [← ep, hi, Option.some.injEq] at hi'
        subst hi'
        refine ⟨i, hi, hn, hb, ?_⟩
        rw [eq2, hval p hp, ← ep, hsc hi]
        rfl
      have hlt1 : ∀ q ∈ p1, q.1 < imgs.length := by
        intro q hq
        obtain ⟨i, hi, _⟩ := hp1 q hq
        exact (List.getElem?_eq_some_iff.1 hi).1
      rw [e1, Res.ok_bind, reduceExclusive6_eq]
      have hin : ∀ p ∈ p1, p.1 < t.byWords.length := fun p hp => by rw [byWords_len h]; exact hlt1 p hp
      by_cases hst : ∃ p ∈ p1, Stuck t.byWords (exclusiveStrats.map t.datas.strat) a r p.1
      · right
        rw [reduceExclusive_stuck t.byWords (exclusiveStrats.map t.datas.strat) (exclusive_loads ha) p1 hin ?_ hst, Res.ub_bind]
        · refine ⟨rfl, hnom, ?_⟩
          obtain ⟨p, hp, hs⟩ := hst
          obtain ⟨i, hi, hn, hb, _⟩ := hp1 p hp
          obtain ⟨j, b, x1, x2, x3, x4⟩ := (keep6 h ha hr (hlt1 p hp)).1 hs
          exact ⟨p.1, i, j, b, hi, hn, hb, x1, x2, x3, x4⟩
        · intro l hl j hj
          obtain ⟨g, hg⟩ := List.getElem?_of_mem hl
          have hgl : g < imgs.length := by rw [← byWords_len h]; exact (List.getElem?_eq_some_iff.1 hg).1
          have hj' : j ∈ t.byWords.getD g [] := by rw [List.getD_eq_getElem?_getD, hg]; exact hj
          obtain ⟨_, v, u, _, e, _⟩ := (twin_iff h hgl j).1 hj'
          have hjl := (List.getElem?_eq_some_iff.1 e).1
          rw [h.len] at hjl
          exact (exclusive_run h.learnt ha hr (List.getElem?_eq_getElem hjl) (h.sized _ (List.getElem_mem hjl))).2.2
      · left
        rw [reduceExclusive_ok t.byWords (exclusiveStrats.map t.datas.strat) (exclusive_loads ha) p1 hin
          (fun p hp hs => hst ⟨p, hp, hs⟩), Res.ok_bind]
        have hsubp : ∀ q ∈ p1.filter (fun p => wordKeep t.byWords (exclusiveStrats.map t.datas.strat) a r p.1), q ∈ p1 :=
          fun q hq => (List.mem_filter.1 hq).1
        obtain ⟨fin, efin, fsub, fsort, fcov⟩ := sortShow8_ok S (words := t.words)
          (ps := p1.filter fun p => wordKeep t.byWords (exclusiveStrats.map t.datas.strat) a r p.1)
          (fun q hq => by rw [hwl]; exact hlt1 q (hsubp q hq))
        have hkept : ∀ q ∈ p1, wordKeep t.byWords (exclusiveStrats.map t.datas.strat) a r q.1 = true ↔ Kept8 imgs ws a q.1 := by
          intro q hq
          obtain ⟨i, hi, hn, hb, _⟩ := hp1 q hq
          rw [(keep6 h ha hr (hlt1 q hq)).2 fun hs => hst ⟨q, hq, hs⟩]
          unfold Kept8
          exact ⟨fun hk => ⟨⟨i, hi, hn, hb⟩, hk⟩, fun hk => hk.2⟩
        have hfin : ∀ q ∈ fin, Kept8 imgs ws a q.1 ∧ q ∈ p1 := by
          intro q hq
          have := List.mem_filter.1 (fsub q hq)
          exact ⟨(hkept q this.1).1 this.2, this.1⟩
        have hfin' : ∀ g, Kept8 imgs ws a g → ∃ q ∈ fin, t.words.getD q.1 [] = t.words.getD g [] ∧
            ∀ i, imgs[g]? = some i → Prob8.le (fullScore P i a) q.2 = true := by
          intro g hk
          obtain ⟨i, hi, hn, hb⟩ := hk.1
          obtain ⟨q0, hq0, e0⟩ := hnear' g i hi hn
          obtain ⟨q1, hq1, eq1⟩ := m2 q0 hq0 i (by rw [e0]; exact hi) hb
          have : q1 ∈ p1.filter fun p => wordKeep t.byWords (exclusiveStrats.map t.datas.strat) a r p.1 :=
            List.mem_filter.2 ⟨hq1, (hkept q1 hq1).2 (by rw [eq1, e0]; exact hk)⟩
          obtain ⟨q', hq', e', le'⟩ := fcov q1 this
          refine ⟨q', hq', by rw [e', eq1, e0], ?_⟩
          intro i' hi'
          obtain ⟨i1, hi1, _, _, es⟩ := hp1 q1 hq1
          rw [eq1, e0, hi', Option.some.injEq] at hi1
          rw [hi1, ← es]
          exact le'
        have hfull : ∀ q ∈ fin, ∃ i, imgs[q.1]? = some i ∧ q.2 = fullScore P i a := by
          intro q hq
          obtain ⟨i, hi, _, _, es⟩ := hp1 q (hfin q hq).2
          exact ⟨i, hi, es⟩
        rw [efin, Res.ok_bind]
        cases fin with
        | nil =>
          refine ⟨_, rfl, ?_, by simp, fun _ => ⟨rfl, rfl⟩, .inl hfirst, fun ⟨k, hk⟩ => absurd hk (hnom k)⟩
          intro w
          constructor
          · intro hw; cases hw
          · rintro ⟨g, v, hc, hgv, _⟩
            rcases hc with hc | ⟨_, hk, _⟩
            · exact absurd hc (hnom g)
            · obtain ⟨q, hq, _⟩ := hfin' g hk
              cases hq
        | cons first fin =>
          have hfl : first.1 < t.words.length := by rw [hwl]; exact hlt1 first (hfin first (by simp)).2
          obtain ⟨r2, er2, hr2⟩ := getWord_ok hne hfl
          obtain ⟨i0, hi0, ef⟩ := hfull first (by simp)
          have hmax : ∀ q ∈ first :: fin, Prob8.le q.2 first.2 = true := by
            intro q hq
            rcases List.mem_cons.1 hq with rfl | hq
            · exact le_refl8 _
            · exact List.rel_of_pairwise_cons fsort hq
          -- the probability as a function of the index
          let fs : Nat → P := fun j => fullScore P (imgs.getD j a) a
          have hfs : ∀ {j : Nat} {i : Image}, imgs[j]? = some i → fs j = fullScore P i a := by
            intro j i hj
            show fullScore P (imgs.getD j a) a = _
            rw [List.getD_eq_getElem?_getD, hj, Option.getD_some]
          have hval2 : ∀ q ∈ first :: fin, q.2 = fs q.1 := by
            intro q hq
            obtain ⟨i, hi, es⟩ := hfull q hq
            rw [hfs hi, es]
          have hg := gather6_ok (words := t.words) (stop := fun p : P => Prob8.less p first.2) (sb := fun j => Prob8.less (fs j) first.2)
            (first :: fin) (fun q hq => by rw [hwl]; exact hlt1 q (hfin q hq).2) (fun q hq => by rw [hval2 q hq])
            (fsort.imp_of_mem fun {x y} hx hy hxy h1 => by
              rw [hval2 x hx, hval2 y hy] at hxy
              unfold Prob8.less at h1 ⊢
              cases hc : Prob8.le first.2 (fs y.1) with
              | false => rfl
              | true => rw [LawfulProb8.trans _ _ _ hc hxy] at h1; cases h1)
          simp only []
          rw [hg, Res.ok_bind, er2, Res.ok_bind]
          have hin2 : ∀ q, q ∈ (first :: fin).filter (fun q => !Prob8.less (fs q.1) first.2) ↔
              q ∈ first :: fin ∧ Prob8.le first.2 q.2 = true := by
            intro q
            rw [List.mem_filter]
            unfold Prob8.less
            rw [Bool.not_not]
            constructor
            · rintro ⟨h1, h2⟩; exact ⟨h1, by rw [hval2 q h1]; exact h2⟩
            · rintro ⟨h1, h2⟩; exact ⟨h1, by rw [hval2 q h1] at h2; exact h2⟩
          have hcons : (first :: fin).filter (fun q => !Prob8.less (fs q.1) first.2) =
              first :: fin.filter (fun q => !Prob8.less (fs q.1) first.2) := by
            rw [List.filter_cons, if_pos]
            unfold Prob8.less
            rw [Bool.not_not, ← hval2 first (by simp)]
            exact le_refl8 _
          refine ⟨_, rfl, ?_, ?_, ?_, .inl hfirst, fun ⟨k, hk⟩ => absurd hk (hnom k)⟩
          · intro w
            simp only [List.mem_flatMap]
            constructor
            · rintro ⟨q, hq, hw⟩
              obtain ⟨hq, hle⟩ := (hin2 q).1 hq
              obtain ⟨hk, hq1⟩ := hfin q hq
              refine ⟨q.1, _, .inr ⟨hnom, hk, ?_⟩, (hword _ _).2 ⟨hlt1 q hq1, rfl⟩, hw⟩
              intro k i j hkk hi hj
              obtain ⟨q', hq', _, hle'⟩ := hfin' k hkk
              obtain ⟨i', hi', es⟩ := hfull q hq
              rw [hi, Option.some.injEq] at hi'
              rw [hi', ← es]
              exact LawfulProb8.trans _ _ _ (LawfulProb8.trans _ _ _ (hle' j hj) (hmax q' hq')) hle
            · rintro ⟨g, v, hc, hgv, hw⟩
              rcases hc with hc | ⟨_, hk, hbst⟩
              · exact absurd hc (hnom g)
              · obtain ⟨q, hq, ew, hle⟩ := hfin' g hk
                obtain ⟨i, hi, _⟩ := hk.1
                refine ⟨q, (hin2 q).2 ⟨hq, ?_⟩, by rw [ew, ((hword _ _).1 hgv).2]; exact hw⟩
                have := hbst first.1 i i0 (hfin first (by simp)).1 hi hi0
                rw [← ef] at this
                exact LawfulProb8.trans _ _ _ this (hle i hi)
          · intro _
            refine ⟨rfl, ?_⟩
            simp only [hcons]
            exact head_gather hr2
          · intro h0
            simp only [hcons] at h0
            have := head_gather (r := fin.filter (fun q => !Prob8.less (fs q.1) first.2)) hr2
            rw [h0] at this
            cases this

end

end Ppocr

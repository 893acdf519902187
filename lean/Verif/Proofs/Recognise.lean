import Verif.Proofs.Setup
import Verif.Spec.ExtractText

/-! # Helper lemmas: a perfect similarity -/

namespace Ppocr
open Spec Props

section
variable {P : Type} [ScoreDbl P]

theorem sim_le (k a b : Nat) : sim k a b ≤ 100 := Nat.sub_le _ _

theorem sim_eq_100 {k : Nat} (hk : 0 < k) (a b : Nat) : sim k a b = 100 ↔ (a - b + (b - a)) * 100 < k := by
  unfold sim
  rw [← Nat.div_eq_zero_iff_lt hk]
  omega

theorem le_one_pct {c : Nat} (hc : c ≤ 100) : Dbl.le (Dbl.ofPct 100 : P) (Dbl.ofPct c) = true ↔ c = 100 := by
  constructor
  · intro h
    rcases Nat.lt_or_ge c 100 with h1 | h1
    · rw [ScoreDbl.pct_lt 100 c h1 (Nat.le_refl _)] at h; cases h
    · omega
  · rintro rfl
    cases h : Dbl.le (Dbl.ofPct 100 : P) (Dbl.ofPct 100)
    · have := LawfulDbl.total _ _ h
      rw [h] at this
      exact this
    · rfl

theorem foldl_le_one {α : Type} (c : α → Nat) (hc : ∀ x, c x ≤ 100) (l : List α) :
    ∀ (acc : P), Dbl.le acc (Dbl.ofPct 100) = true →
      (Dbl.le (Dbl.ofPct 100) (l.foldl (fun a x => Dbl.mul a (Dbl.ofPct (c x))) acc) = true ↔
        Dbl.le (Dbl.ofPct 100) acc = true ∧ ∀ x ∈ l, c x = 100) := by
  induction l with
  | nil => intro acc _; simp
  | cons x l ih =>
    intro acc ha
    rw [List.foldl_cons, ih _ (LawfulDbl.trans _ _ _ (ScoreDbl.mul_le acc (c x) (hc x)) ha)]
    have : Dbl.le (Dbl.ofPct 100) (Dbl.mul acc (Dbl.ofPct (c x))) = true ↔ Dbl.le (Dbl.ofPct 100) acc = true ∧ c x = 100 := by
      constructor
      · intro h
        exact ⟨LawfulDbl.trans _ _ _ h (ScoreDbl.mul_le acc (c x) (hc x)),
          (le_one_pct (P := P) (hc x)).1 (LawfulDbl.trans _ _ _ h (ScoreDbl.mul_le_pct acc (c x) ha (hc x)))⟩
      · rintro ⟨h, e⟩
        exact ScoreDbl.one_le_mul _ _ h ((le_one_pct (hc x)).2 e)
    rw [this]
    simp only [List.mem_cons, forall_eq_or_imp, and_assoc]

theorem pct_le_one {c : Nat} (hc : c ≤ 100) : Dbl.le (Dbl.ofPct c : P) (Dbl.ofPct 100) = true := by
  rcases Nat.lt_or_ge c 100 with h1 | h1
  · exact LawfulDbl.total _ _ (ScoreDbl.pct_lt 100 c h1 (Nat.le_refl _))
  · have : c = 100 := by omega
    subst this
    exact (le_one_pct (P := P) hc).2 rfl

theorem score_perfect (val : Simple → Nat) (first : Simple) (ss : List Simple) (g : Nat) :
    Dbl.le (Dbl.ofPct 100) (score val first ss g : P) = true ↔
      ∀ t ∈ first :: ss, sim t.k (t.tab.getD g 0) (val t) = 100 := by
  unfold score
  rw [foldl_le_one (fun s => sim s.k (s.tab.getD g 0) (val s)) (fun _ => sim_le _ _ _) ss _ (pct_le_one (sim_le _ _ _)),
    le_one_pct (sim_le _ _ _)]
  simp only [List.mem_cons, forall_eq_or_imp]

end

section
variable {imgs : List Image} {d : Datas}

theorem alike_refl {i : Image} (h : Sized i) : Alike i i := by
  intro s hs
  obtain ⟨r, er, hr, _⟩ := h.rotate
  obtain ⟨n, e, _⟩ := feature_simple hs h hr
  refine ⟨r, r, n, n, er, er, e, e, ?_⟩
  have := feat_k s.1
  omega

/-- The entry of a simple strategy and its similarity. -/
theorem alike_tab (h : Learnt imgs d) {a r : Image} (ha : Sized a) (hr : a.rotate90 = .ok r) (hi : ∀ i ∈ imgs, Sized i) (g : Nat) :
    AlikeGlyph imgs a g ↔ g < imgs.length ∧ ∀ s ∈ simpleStrats,
      (((d.simple s).tab.getD g 0) - (valOf a r (d.simple s)) + ((valOf a r (d.simple s)) - ((d.simple s).tab.getD g 0))) * 100 < s.1.k := by
  have hl := ha.rotated hr
  have key : ∀ (i : Image), imgs[g]? = some i → ∀ s ∈ simpleStrats, ∃ r', i.rotate90 = .ok r' ∧
      feature s i r' = .ok (.num ((d.simple s).tab.getD g 0)) ∧ feature s a r = .ok (.num (valOf a r (d.simple s))) := by
    intro i hgi s hs
    have hli := hi i (List.mem_of_getElem? hgi)
    obtain ⟨r', er, hr', _⟩ := hli.rotate
    obtain ⟨n, e, _⟩ := feature_simple hs hli hr'
    obtain ⟨v, e1, e2⟩ := (get_learnt h (simpleStrats_registered hs)).2 g i r' hgi er
    rw [e] at e2
    cases e2
    refine ⟨r', er, ?_, ?_⟩
    · rw [e]
      show _ = Res.ok (Value.num (((d.get s).map Value.toNum).getD g 0))
      rw [List.getD_eq_getElem?_getD, List.getElem?_map, e1]
      rfl
    · obtain ⟨n, e, e', _⟩ := simple_load d hs ha hl
      rw [e]
      unfold valOf
      rw [e']
      rfl
  constructor
  · rintro ⟨i, hgi, hal⟩
    refine ⟨(List.getElem?_eq_some_iff.1 hgi).1, ?_⟩
    intro s hs
    obtain ⟨r', er, e1, e2⟩ := key i hgi s hs
    obtain ⟨ra, rb, x, y, f1, f2, f3, f4, f5⟩ := hal s hs
    rw [er] at f1; cases f1
    rw [hr] at f2; cases f2
    rw [e1] at f3; cases f3
    rw [e2] at f4; cases f4
    exact f5
  · rintro ⟨hg, hal⟩
    refine ⟨imgs[g], List.getElem?_eq_getElem hg, ?_⟩
    intro s hs
    obtain ⟨r', er, e1, e2⟩ := key _ (List.getElem?_eq_getElem hg) s hs
    exact ⟨r', r, _, _, er, hr, e1, e2, hal s hs⟩

variable {P : Type} [ScoreDbl P]

/-- A glyph alike to the letter is a perfect candidate. -/
theorem alike_perfect (S : StdSort) (glyphs : List (List View)) (bw : List (List Nat)) (h : Learnt imgs d)
    (hi : ∀ i ∈ imgs, Sized i) (hn : glyphs.length = imgs.length) {a r : Image} (ha : Sized a) (hr : a.rotate90 = .ok r) {g : Nat}
    (hg : AlikeGlyph imgs a g) :
    ∃ U : List (Nat × P), computeSimpleUniverse (setupOf S glyphs d bw : Setup P).cap (setupOf S glyphs d bw : Setup P).first
      (setupOf S glyphs d bw : Setup P).simple (setupOf S glyphs d bw : Setup P).idx a r = .ok U ∧
      ∃ p ∈ U, Dbl.le (Dbl.ofPct 100) p.2 = true := by
  have hl := ha.rotated hr
  have hs := fun t ht => setup_simple (P := P) S glyphs bw h ha hl (t := t) ht
  obtain ⟨U, u1, _, u3⟩ := C30_simple_universe (P := P) (setupOf S glyphs d bw : Setup P).sort
    (setupOf S glyphs d bw : Setup P).cap imgs.length (setupOf S glyphs d bw : Setup P).first
    (setupOf S glyphs d bw : Setup P).simple a r (valOf a r)
    (fun t ht => (hs t ht).1) (fun t ht => (hs t ht).2) (Nat.le_of_eq hn.symm)
  have hg' := (alike_tab h ha hr hi g).1 hg
  refine ⟨U, u1, (g, score (valOf a r) (setupOf S glyphs d bw : Setup P).first (setupOf S glyphs d bw : Setup P).simple g),
    (u3 g _).2 ⟨rfl, ?_⟩, ?_⟩
  · intro t ht
    have ht' : t ∈ simpleStrats.map d.simple := ht
    obtain ⟨s, hs', rfl⟩ := List.mem_map.1 ht'
    have hlt : g < (d.simple s).tab.length := by
      rw [(hs _ ht).2.len]; exact hg'.1
    have := hg'.2 s hs'
    rw [List.getD_eq_getElem?_getD, List.getElem?_eq_getElem hlt, Option.getD_some] at this
    refine ⟨_, List.getElem?_eq_getElem hlt, ?_, ?_⟩
    · show _ ≤ _ + s.1.k / 10
      omega
    · show _ ≤ _ + s.1.k / 10
      omega
  · show Dbl.le _ (score _ _ _ g) = true
    rw [score_perfect]
    intro t ht
    have ht' : t ∈ simpleStrats.map d.simple := ht
    obtain ⟨s, hs', rfl⟩ := List.mem_map.1 ht'
    rw [sim_eq_100 (hs _ ht).2.pos]
    exact hg'.2 s hs'

theorem le_pct {b c : Nat} (hb : b ≤ 100) (hc : c ≤ 100) : Dbl.le (Dbl.ofPct b : P) (Dbl.ofPct c) = true ↔ b ≤ c := by
  constructor
  · intro h
    rcases Nat.lt_or_ge c b with h1 | h1
    · rw [ScoreDbl.pct_lt b c h1 hb] at h; cases h
    · exact h1
  · intro h
    cases hh : Dbl.le (Dbl.ofPct b : P) (Dbl.ofPct c)
    · have ht := LawfulDbl.total _ _ hh
      rcases Nat.lt_or_ge b c with h1 | h1
      · rw [ScoreDbl.pct_lt c b h1 hc] at ht
        cases ht
      · have : b = c := by omega
        subst this
        rw [hh] at ht
        exact ht
    · rfl

theorem hbar_sim (h : Learnt imgs d) {a r : Image} (ha : Sized a) (hr : a.rotate90 = .ok r) {g : Nat} {i q : Image}
    (hg : imgs[g]? = some i) (hi : Sized i) (hq : i.rotate90 = .ok q) {p : Policy} (hp : (Feat.hbar, p) ∈ registered) :
    simOf (d.strat (.hbar, p)) a r g = if feature (.hbar, p) i q = feature (.hbar, p) a r then 100 else 0 := by
  obtain ⟨x, ex⟩ := feature_hbar hi (hi.rotated hq) p
  obtain ⟨y, ey⟩ := feature_hbar ha (ha.rotated hr) p
  have e1 : (d.strat (.hbar, p)).load a r = .ok y := by
    show (do return (← loadStrat (.hbar, p) a r).toNum : Res Nat) = _
    rw [loadStrat_eq, ey]; rfl
  have e2 : rd (d.strat (.hbar, p)).tab g = .ok x := get_entry h hp hg hq ex Value.toNum
  have e3 : (d.strat (.hbar, p)).rel.compute y x = .ok (if y = x then 100 else 0) := rfl
  rw [simOf_of e1 e2 e3, ex, ey]
  by_cases hxy : x = y
  · subst hxy
    rw [if_pos rfl, if_pos rfl]
  · rw [if_neg (Ne.symm hxy), if_neg (by
      intro e
      cases e
      exact hxy rfl)]

theorem alternations_sim (h : Learnt imgs d) {a r : Image} (ha : Sized a) (hr : a.rotate90 = .ok r) {g : Nat} {i q : Image}
    (hg : imgs[g]? = some i) (hi : Sized i) (hq : i.rotate90 = .ok q) :
    ∃ x y, feature (.alternations, .img) i q = .ok (.alt x) ∧ feature (.alternations, .img) a r = .ok (.alt y) ∧ agree x y ≤ 7 ∧
      simOf (d.strat (.alternations, .img)) a r g = agree x y * 100 / 7 := by
  obtain ⟨x, ex, hx⟩ := feature_alternations hi (hi.rotated hq)
  obtain ⟨y, ey, hy⟩ := feature_alternations ha (ha.rotated hr)
  have e1 : (d.strat (.alternations, .img)).load a r = .ok y := by
    show (do return (← loadStrat (.alternations, .img) a r).toAlt : Res _) = _
    rw [loadStrat_eq, ey]; rfl
  have e2 : rd (d.strat (.alternations, .img)).tab g = .ok x := get_entry h (by decide) hg hq ex Value.toAlt
  obtain ⟨e3, h7⟩ := arrayRel_agree hy hx
  refine ⟨x, y, ex, ey, ?_, ?_⟩
  · rw [agree_comm]; exact h7
  · rw [agree_comm]
    exact simOf_of (s := d.strat (.alternations, .img)) e1 e2 e3

/-- The complex strategies keep the pictures with the bars and most alternations of the letter. -/
theorem complex_iff (h : Learnt imgs d) {a r : Image} (ha : Sized a) (hr : a.rotate90 = .ok r) {g : Nat} {i q : Image}
    (hg : imgs[g]? = some i) (hi : Sized i) (hq : i.rotate90 = .ok q) :
    complexKeep P (complexStrats.map d.strat) a r g = true ↔
      (∀ p, feature (.hbar, p) i q = feature (.hbar, p) a r) ∧
      ∃ x y, feature (.alternations, .img) i q = .ok (.alt x) ∧ feature (.alternations, .img) a r = .ok (.alt y) ∧
        4 ≤ agree x y := by
  obtain ⟨x, y, ex, ey, h7, es⟩ := alternations_sim h ha hr hg hi hq
  have el : complexStrats.map d.strat = [d.strat (.hbar, .img), d.strat (.hbar, .img90), d.strat (.alternations, .img)] := rfl
  unfold complexKeep
  rw [el, List.all_cons, List.all_cons, List.all_cons, List.all_nil, Bool.and_true, Bool.and_eq_true, Bool.and_eq_true,
    hbar_sim h ha hr hg hi hq (by decide), hbar_sim h ha hr hg hi hq (by decide), es,
    le_pct (by omega) (by split <;> omega), le_pct (by omega) (by split <;> omega), le_pct (by omega) (by omega)]
  constructor
  · rintro ⟨h1, h2, h3⟩
    refine ⟨?_, x, y, ex, ey, by omega⟩
    intro p
    cases p with
    | img =>
      apply Classical.byContradiction
      intro hne
      rw [if_neg hne] at h1
      omega
    | img90 =>
      apply Classical.byContradiction
      intro hne
      rw [if_neg hne] at h2
      omega
  · rintro ⟨h1, x', y', ex', ey', h4⟩
    rw [ex] at ex'; cases ex'
    rw [ey] at ey'; cases ey'
    rw [if_pos (h1 .img), if_pos (h1 .img90)]
    omega

/-- The candidates of the simple strategies. -/
theorem universe_iff (S : StdSort) (glyphs : List (List View)) (bw : List (List Nat)) (h : Learnt imgs d)
    (hi : ∀ i ∈ imgs, Sized i) (hn : glyphs.length = imgs.length) {a r : Image} (ha : Sized a) (hr : a.rotate90 = .ok r) :
    ∃ U : List (Nat × P), computeSimpleUniverse (setupOf S glyphs d bw : Setup P).cap (setupOf S glyphs d bw : Setup P).first
      (setupOf S glyphs d bw : Setup P).simple (setupOf S glyphs d bw : Setup P).idx a r = .ok U ∧
      (U.map Prod.fst).Nodup ∧
      (∀ g p, (g, p) ∈ U ↔ p = score (valOf a r) (d.simple firstStrat) (otherStrats.map d.simple) g ∧
        ∀ s ∈ simpleStrats, ∃ x v, (d.get s)[g]? = some (.num x) ∧ feature s a r = .ok (.num v) ∧
          x ≤ v + s.1.k / 10 ∧ v ≤ x + s.1.k / 10) ∧
      ∀ g p, (g, p) ∈ U → (Dbl.le (Dbl.ofPct 100) p = true ↔ AlikeGlyph imgs a g) := by
  have hl := ha.rotated hr
  have hs := fun t ht => setup_simple (P := P) S glyphs bw h ha hl (t := t) ht
  obtain ⟨U, u1, u2, u3⟩ := C30_simple_universe (P := P) (setupOf S glyphs d bw : Setup P).sort
    (setupOf S glyphs d bw : Setup P).cap imgs.length (setupOf S glyphs d bw : Setup P).first
    (setupOf S glyphs d bw : Setup P).simple a r (valOf a r)
    (fun t ht => (hs t ht).1) (fun t ht => (hs t ht).2) (Nat.le_of_eq hn.symm)
  refine ⟨U, u1, u2, ?_, ?_⟩
  · intro g p
    rw [u3]
    refine and_congr_right fun _ => ?_
    have key : ∀ s ∈ simpleStrats, (∃ t, (d.simple s).tab[g]? = some t ∧ t ≤ valOf a r (d.simple s) + s.1.k / 10 ∧
        valOf a r (d.simple s) ≤ t + s.1.k / 10) ↔ ∃ x v, (d.get s)[g]? = some (.num x) ∧ feature s a r = .ok (.num v) ∧
          x ≤ v + s.1.k / 10 ∧ v ≤ x + s.1.k / 10 := by
      intro s hs
      obtain ⟨n, e, e', _⟩ := simple_load d hs ha hl
      have ev : valOf a r (d.simple s) = n := by unfold valOf; rw [e']; rfl
      have et : (d.simple s).tab[g]? = (d.get s)[g]?.map Value.toNum := List.getElem?_map
      rw [ev, et, e]
      cases hg : (d.get s)[g]? with
      | none => simp
      | some v =>
        obtain ⟨i, q, _, l1, l2, _, l4⟩ := get_mem h hi (simpleStrats_registered hs) (List.mem_of_getElem? hg)
        obtain ⟨m, em, _⟩ := feature_simple hs l1 l2
        rw [em] at l4
        cases l4
        constructor
        · rintro ⟨t, ht, h1, h2⟩
          cases ht
          exact ⟨m, n, rfl, rfl, h1, h2⟩
        · rintro ⟨x, v, hx, hv, h1, h2⟩
          cases hx
          cases hv
          exact ⟨m, rfl, h1, h2⟩
    constructor
    · intro hall s hs
      exact (key s hs).1 (hall (d.simple s) (List.mem_map_of_mem (f := d.simple) hs : _ ∈ simpleStrats.map d.simple))
    · intro hall t ht
      have ht' : t ∈ simpleStrats.map d.simple := ht
      obtain ⟨s, hs, rfl⟩ := List.mem_map.1 ht'
      exact (key s hs).2 (hall s hs)
  · intro k p hk
    obtain ⟨rfl, hnear⟩ := (u3 k p).1 hk
    rw [score_perfect, alike_tab h ha hr hi]
    constructor
    · intro hs0
      refine ⟨?_, ?_⟩
      · obtain ⟨t, ht, _⟩ := hnear _ List.mem_cons_self
        have := (List.getElem?_eq_some_iff.1 ht).1
        rwa [(hs _ List.mem_cons_self).2.len] at this
      · intro s hs'
        have hm := (List.mem_map_of_mem (f := d.simple) hs' : _ ∈ simpleStrats.map d.simple)
        have := hs0 (d.simple s) hm
        rw [sim_eq_100 (hs _ hm).2.pos] at this
        exact this
    · rintro ⟨_, hs0⟩ t ht
      have ht' : t ∈ simpleStrats.map d.simple := ht
      obtain ⟨s, hs', rfl⟩ := List.mem_map.1 ht'
      rw [sim_eq_100 (hs _ ht).2.pos]
      exact hs0 s hs'

theorem close_iff (h : Learnt imgs d) {a r : Image} (ha : Sized a) (hr : a.rotate90 = .ok r) {g : Nat} {i : Image}
    (hg : imgs[g]? = some i) (hi : Sized i) :
    CloseTo i a ↔ (∀ s ∈ simpleStrats, ∃ x v, (d.get s)[g]? = some (.num x) ∧ feature s a r = .ok (.num v) ∧
        x ≤ v + s.1.k / 10 ∧ v ≤ x + s.1.k / 10) ∧ complexKeep P (complexStrats.map d.strat) a r g = true := by
  obtain ⟨q, hq, _⟩ := hi.rotate
  rw [complex_iff h ha hr hg hi hq]
  constructor
  · rintro ⟨ri, ra, h1, h2, h3, h4⟩
    rw [hq] at h1; cases h1
    rw [hr] at h2; cases h2
    refine ⟨?_, h4⟩
    intro s hs
    obtain ⟨x, y, e1, e2, e3⟩ := h3 s hs
    obtain ⟨v, ev, ev'⟩ := (get_learnt h (simpleStrats_registered hs)).2 g i q hg hq
    rw [e1] at ev'
    cases ev'
    exact ⟨x, y, ev, e2, e3⟩
  · rintro ⟨h3, h4⟩
    refine ⟨q, r, hq, hr, ?_, h4⟩
    intro s hs
    obtain ⟨x, y, e1, e2, e3⟩ := h3 s hs
    obtain ⟨v, ev, ev'⟩ := (get_learnt h (simpleStrats_registered hs)).2 g i q hg hq
    rw [e1] at ev
    cases ev
    exact ⟨x, y, ev', e2, e3⟩

/-- The search through the pictures of a word. -/
theorem stuck_iff (glyphs : List (List View)) (bw : List (List Nat)) (h : Learnt imgs d)
    (hi : ∀ i ∈ imgs, Sized i) (hn : glyphs.length = imgs.length) (hb : dataIndexesByWords glyphs = .ok bw)
    (he : [] ∉ glyphs) {a r : Image} (ha : Sized a) (hr : a.rotate90 = .ok r) {g : Nat} (hg : g < imgs.length) :
    Stuck bw (exclusiveStrats.map d.strat) a r g ↔ ∃ pre j post b, others glyphs g = pre ++ j :: post ∧
      (∀ k ∈ pre, ∀ c, imgs[k]? = some c → ¬ SameZones c a) ∧ imgs[j]? = some b ∧ SameZones b a ∧ Clash b a := by
  obtain ⟨t, e1, e2, e3, e4⟩ := C33_by_words glyphs he
  rw [hb] at e1
  cases e1
  have hin : ∀ j ∈ others glyphs g, j < imgs.length := by
    intro j hj
    obtain ⟨l, h1, _, h3⟩ := e3 g (by omega)
    rw [e4 g (by omega)] at h1
    cases h1
    have := ((h3 j).1 hj).1
    omega
  have eo : bw.getD g [] = others glyphs g := by
    rw [List.getD_eq_getElem?_getD, e4 g (by omega)]
    rfl
  unfold Stuck
  rw [eo]
  have run := fun j (hj : j < imgs.length) => exclusive_run h ha hr (List.getElem?_eq_getElem hj) (hi _ (List.getElem_mem hj))
  constructor
  · rintro ⟨pre, j, post, h1, h2, h3⟩
    have hj := hin j (by rw [h1]; simp)
    have := (run j hj).2.1.1 h3
    refine ⟨pre, j, post, imgs[j], h1, ?_, List.getElem?_eq_getElem hj, this.1, this.2⟩
    intro k hk c hc
    have hk' := hin k (by rw [h1]; simp [hk])
    rw [List.getElem?_eq_getElem hk', Option.some.injEq] at hc
    subst hc
    exact (run k hk').1.1 (h2 k hk)
  · rintro ⟨pre, j, post, b, h1, h2, h3, h4, h5⟩
    have hj := hin j (by rw [h1]; simp)
    rw [List.getElem?_eq_getElem hj, Option.some.injEq] at h3
    subst h3
    refine ⟨pre, j, post, h1, ?_, (run j hj).2.1.2 ⟨h4, h5⟩⟩
    intro k hk
    have hk' := hin k (by rw [h1]; simp [hk])
    exact (run k hk').1.2 (h2 k hk _ (List.getElem?_eq_getElem hk'))

/-- The tables and buffers fit for every letter that can be compared. -/
theorem comparable_ok (S : StdSort) (glyphs : List (List View)) (bw : List (List Nat)) (h : Learnt imgs d)
    (hi : ∀ i ∈ imgs, Sized i) (hn : glyphs.length = imgs.length) (hb : dataIndexesByWords glyphs = .ok bw)
    (he : [] ∉ glyphs) {a r : Image} (ha : Sized a) (hr : a.rotate90 = .ok r) (hc : Comparable imgs glyphs a) :
    SetupOk (setupOf S glyphs d bw : Setup P) (valOf a r) imgs.length a r := by
  refine ⟨setup_base S glyphs bw h hi hn hb he ha hr, ?_⟩
  intro U e hnone p hp hk hst
  obtain ⟨U', u1, _, u3, u4⟩ := universe_iff (P := P) S glyphs bw h hi hn ha hr
  rw [e] at u1
  cases u1
  obtain ⟨hsc, hnear⟩ := (u3 p.1 p.2).1 hp
  have hlt : p.1 < imgs.length := by
    obtain ⟨x, _, hx, _⟩ := hnear firstStrat (by decide)
    have := (List.getElem?_eq_some_iff.1 hx).1
    rwa [(get_learnt h (by decide)).1] at this
  obtain ⟨pre, j, post, b, h1, h2, h3, h4, h5⟩ := (stuck_iff glyphs bw h hi hn hb he ha hr hlt).1 hst
  refine hc ⟨?_, p.1, imgs[p.1], pre, j, post, b, List.getElem?_eq_getElem hlt, ?_, h1, h2, h3, h4, h5⟩
  · intro k hk
    obtain ⟨U', u1, q, hq, hq'⟩ := alike_perfect (P := P) S glyphs bw h hi hn ha hr hk
    rw [e] at u1
    cases u1
    rw [hnone q hq] at hq'
    cases hq'
  · exact (close_iff (P := P) h ha hr (List.getElem?_eq_getElem hlt) (hi _ (List.getElem_mem hlt))).2 ⟨hnear, hk⟩

/-- The recognition of any other letter is undefined. -/
theorem blocked_ub (S : StdSort) (glyphs : List (List View)) (bw : List (List Nat)) (h : Learnt imgs d)
    (hi : ∀ i ∈ imgs, Sized i) (hn : glyphs.length = imgs.length) (hb : dataIndexesByWords glyphs = .ok bw)
    (he : [] ∉ glyphs) {a r : Image} (ha : Sized a) (hr : a.rotate90 = .ok r) (hc : Blocked imgs glyphs a)
    (tmp : List (Nat × P)) : computeImage (setupOf S glyphs d bw : Setup P) tmp a r = .ub := by
  obtain ⟨hno, g, i, pre, j, post, b, hg, hcl, hrest⟩ := hc
  have base := setup_base (P := P) S glyphs bw h hi hn hb he ha hr
  obtain ⟨U, u1, _, u3, u4⟩ := universe_iff (P := P) S glyphs bw h hi hn ha hr
  have hlt := (List.getElem?_eq_some_iff.1 hg).1
  obtain ⟨c1, c2⟩ := (close_iff (P := P) h ha hr hg (hi i (List.mem_of_getElem? hg))).1 hcl
  refine computeImage_stuck _ _ _ _ _ base tmp ?_ u1 ?_ ?_
  · intro l hl k hk
    have hk' := base.byWordsIn l hl k hk
    exact (exclusive_run h ha hr (List.getElem?_eq_getElem hk') (hi _ (List.getElem_mem hk'))).2.2
  · intro p hp
    cases hh : Dbl.le (Dbl.ofPct 100) p.2 with
    | false => rfl
    | true => exact absurd ((u4 p.1 p.2 hp).1 hh) (hno _)
  · refine ⟨(g, _), (u3 g _).2 ⟨rfl, c1⟩, c2, ?_⟩
    exact (stuck_iff glyphs bw h hi hn hb he ha hr hlt).2 ⟨pre, j, post, b, hrest⟩

/-- The recognition of a letter alike to a glyph. -/
theorem candidates_alike (S : StdSort) (glyphs : List (List View)) (bw : List (List Nat)) (h : Learnt imgs d)
    (hi : ∀ i ∈ imgs, Sized i) (hn : glyphs.length = imgs.length) (hb : dataIndexesByWords glyphs = .ok bw)
    (he : [] ∉ glyphs) {a : Image} (ha : Sized a) {g : Nat} (hg : AlikeGlyph imgs a g) :
    ∃ G : List Nat, candidates (setupOf S glyphs d bw : Setup P) a = .ok (G.flatMap fun k => glyphs.getD k []) ∧
      (∀ k ∈ G, AlikeGlyph imgs a k) ∧
      G.Pairwise (fun k l => (viewsIndexes S glyphs).getD k 0 ≠ (viewsIndexes S glyphs).getD l 0) ∧
      ∀ k, AlikeGlyph imgs a k → ∃ l ∈ G, (viewsIndexes S glyphs).getD l 0 = (viewsIndexes S glyphs).getD k 0 := by
  obtain ⟨r, er, hr, _⟩ := ha.rotate
  have ok := comparable_ok (P := P) S glyphs bw h hi hn hb he ha er (comparable_alike hg)
  obtain ⟨U, h1, h2, T, o, h3, h4, _, _, h7⟩ := computeImage_ok _ _ _ _ _ ok []
  obtain ⟨U', u1, _, u3⟩ := C30_simple_universe (P := P) (setupOf S glyphs d bw : Setup P).sort _ _ _ _ _ _ _ ok.load ok.simple ok.cap
  have : U = U' := by
    have := h1.symm.trans ((ok.idx ▸ rfl : _ = _).trans u1)
    exact Res.ok.inj this
  subst this
  have hU : ∀ k p, (k, p) ∈ U → (Dbl.le (Dbl.ofPct 100) p = true ↔ AlikeGlyph imgs a k) := by
    intro k p hk
    obtain ⟨rfl, hnear⟩ := (u3 k p).1 hk
    rw [score_perfect, alike_tab h ha er hi]
    constructor
    · intro hs
      refine ⟨h2.2 _ hk, ?_⟩
      intro s hs'
      have := hs (d.simple s) (List.mem_map_of_mem (f := d.simple) hs' : _ ∈ simpleStrats.map d.simple)
      rw [sim_eq_100 (ok.simple _ (List.mem_map_of_mem (f := d.simple) hs' : _ ∈ simpleStrats.map d.simple)).pos] at this
      exact this
    · rintro ⟨_, hs⟩ t ht
      have ht' : t ∈ simpleStrats.map d.simple := ht
      obtain ⟨s, hs', rfl⟩ := List.mem_map.1 ht'
      rw [sim_eq_100 (ok.simple _ ht).pos]
      exact hs s hs'
  have hUin : ∀ k, AlikeGlyph imgs a k → ∃ p, (k, p) ∈ U ∧ Dbl.le (Dbl.ofPct 100) p = true := by
    intro k hk
    have hk' := (alike_tab h ha er hi k).1 hk
    have hin : (k, (score (valOf a r) (setupOf S glyphs d bw : Setup P).first (setupOf S glyphs d bw : Setup P).simple k : P)) ∈ U := by
      rw [u3]
      refine ⟨rfl, ?_⟩
      intro t ht
      have ht' : t ∈ simpleStrats.map d.simple := ht
      obtain ⟨s, hs', rfl⟩ := List.mem_map.1 ht'
      have hlt : k < (d.simple s).tab.length := by
        rw [(ok.simple _ ht).len]; exact hk'.1
      have := hk'.2 s hs'
      rw [List.getD_eq_getElem?_getD, List.getElem?_eq_getElem hlt, Option.getD_some] at this
      refine ⟨_, List.getElem?_eq_getElem hlt, ?_, ?_⟩
      · show _ ≤ _ + s.1.k / 10
        omega
      · show _ ≤ _ + s.1.k / 10
        omega
    exact ⟨_, hin, (hU k _ hin).2 hk⟩
  have hcand : candidates (setupOf S glyphs d bw : Setup P) a = .ok o.views := by
    unfold candidates
    rw [er, Res.ok_bind, h4]
    rfl
  obtain ⟨p0, hp0, hp1⟩ := hUin g hg
  rcases h7 with ⟨_, hB, _, hv⟩ | ⟨hB, _⟩
  · refine ⟨(T.filter fun p => Dbl.le (Dbl.ofPct 100) p.2).map Prod.fst, ?_, ?_, ?_, ?_⟩
    · rw [hcand, hv]
      unfold viewsOf
      rw [List.flatMap_map]
      rfl
    · intro k hk
      obtain ⟨q, hq, rfl⟩ := List.mem_map.1 hk
      obtain ⟨hq1, hq2⟩ := List.mem_filter.1 hq
      exact (hU q.1 q.2 (hB.sub q hq1)).1 hq2
    · rw [List.pairwise_map]
      exact (hB.distinct.filter _)
    · intro k hk
      obtain ⟨p, hp, hp'⟩ := hUin k hk
      obtain ⟨q, hq, hq1, hq2⟩ := hB.cover _ hp
      exact ⟨q.1, List.mem_map.2 ⟨q, List.mem_filter.2 ⟨hq, LawfulDbl.trans _ _ _ hp' hq2⟩, rfl⟩, hq1⟩
  · rcases hB with ⟨hB, _⟩ | hB
    · exact absurd hB (by simp [setupOf, complexStrats])
    · rw [hB _ hp0] at hp1
      cases hp1

end

end Ppocr

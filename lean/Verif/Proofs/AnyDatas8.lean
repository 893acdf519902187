import Verif.Proofs.AnyDatas6
import Verif.Proofs.Program8

/-! # Helper lemmas: `extract_text8` with any features -/

namespace Ppocr
open Spec Props

/-! ## Simple strategies -/

/-- Whatever the entry is, the sums do not wrap around: the value of the letter is at most 200. -/
theorem inInterval_any {x d : Nat} (v : Nat) (hx : x ≤ 200) (hd : d ≤ 200) : inInterval x v d = true ↔ v ≤ x + d ∧ x ≤ v + d := by
  unfold inInterval
  split
  · rw [uadd_eq (by simp only [W32]; omega)]
    simp
    omega
  · rw [uadd_eq (by simp only [W32]; omega)]
    simp
    omega

theorem factor8_any {k v x : Nat} (hk : k = 100 ∨ k = 200) (hx : x ≤ k) (h1 : v ≤ x + k / 10) (h2 : x ≤ v + k / 10) :
    ∃ f, factor8 k v x = .ok f := by
  unfold factor8 udiv
  simp only []
  rw [uadd_eq (a := x) (by simp only [W32]; omega), uadd_eq (a := v) (by simp only [W32]; omega)]
  by_cases h : x < v
  · rw [if_pos h, if_pos h1, if_neg (by omega)]
    exact ⟨_, rfl⟩
  · rw [if_neg h, if_pos h2, if_neg (by omega)]
    exact ⟨_, rfl⟩

section
variable {P : Type} [Prob8 P]

theorem update8_any {d : Datas} {a r : Image} {val : Feat × Policy → Nat} {n j : Nat} (hj : j < n) : ∀ (ss : List (Feat × Policy)) (p : P),
    (∀ s ∈ ss, s ∈ simpleStrats ∧ toolLoad s a r = .ok (.num (val s)) ∧ val s ≤ s.1.k ∧ (d.col s).length = n ∧ in8 d val j s = true) →
    ∃ q, update8 d a r j ss p = .ok q := by
  intro ss
  induction ss with
  | nil => intro p _; exact ⟨_, rfl⟩
  | cons s ss ih =>
    intro p h
    obtain ⟨h0, h1, h2, h3, h5⟩ := h s (by simp)
    have hlt : j < (d.col s).length := by rw [h3]; exact hj
    have hk := feat_k s.1
    have hi := interval8_simple s h0
    unfold in8 at h5
    rw [hi, inInterval_any _ (by omega) (by omega)] at h5
    obtain ⟨f, ef⟩ := factor8_any hk h2 h5.1 h5.2
    obtain ⟨q, eq⟩ := ih (Prob8.scale p f 100) fun s hs => h s (by simp [hs])
    refine ⟨q, ?_⟩
    rw [update8, h1, Res.ok_bind, rd_getD hlt, Res.ok_bind, hi]
    show Res.bind (factor8 s.1.k ((d.col s).getD j 0) (val s)) _ = _
    rw [ef]
    exact eq

theorem eachRes_any {α β : Type} {f : α → Res β} {Q : α → β → Prop} : ∀ l : List α, (∀ a ∈ l, ∃ b, f a = .ok b ∧ Q a b) →
    ∃ r, eachRes f l = .ok r ∧ ∀ b ∈ r, ∃ a ∈ l, Q a b
  | [], _ => ⟨[], rfl, by simp⟩
  | a :: l, h => by
    obtain ⟨b, e, hq⟩ := h a (by simp)
    obtain ⟨r, er, hr⟩ := eachRes_any l fun x hx => h x (by simp [hx])
    refine ⟨b :: r, ?_, ?_⟩
    · rw [eachRes, e, Res.ok_bind, er]; rfl
    · intro y hy
      rcases List.mem_cons.1 hy with rfl | hy
      · exact ⟨a, by simp, hq⟩
      · obtain ⟨x, hx, hxy⟩ := hr y hy
        exact ⟨x, by simp [hx], hxy⟩

/-- The candidates are glyphs with values near to those of the letter. -/
theorem candidates8_any {t : Tab8} {n : Nat} (h : Tabs t.datas n) (hs : t.datas.size = n) (hw : t.words.length = n) (hn : n < W32)
    {a r : Image} (ha : Sized a) (hr : a.rotate90 = .ok r) :
    ∃ ps : List (Nat × P), candidates8 t a r = .ok ps ∧ ∀ p ∈ ps, p.1 < n ∧ ∀ s ∈ simpleStrats,
      (t.datas.col s).getD p.1 0 ≤ val6 a r s + s.1.k / 10 ∧ val6 a r s ≤ (t.datas.col s).getD p.1 0 + s.1.k / 10 := by
  have hv := val6_ok ha (ha.rotated hr)
  have hcol : ∀ {s}, s ∈ simpleStrats → (t.datas.col s).length = n := fun {s} hs => by
    unfold Datas.col
    rw [List.length_map, h.len s (simpleStrats_registered hs)]
  have h1 : strategy1 ∈ simpleStrats := by decide
  have hload : ∀ s ∈ simpleStrats, toolLoad s a r = .ok (.num (val6 a r s)) := fun s hs => by rw [toolLoad_eq]; exact (hv s hs).1
  unfold candidates8
  rw [hload _ h1, Res.ok_bind, hs]
  simp only []
  rw [if_neg (by omega), first8_ok _ _ _ _ _ (by rw [hcol h1]; omega), Res.ok_bind, ← List.range_eq_range']
  rw [if_neg (by
    rw [List.length_map, hw]
    exact Nat.not_lt.2 (Nat.le_trans (List.length_filter_le _ _) (by rw [List.length_range]; exact Nat.le_refl _)))]
  rw [reduceAll8_ok (val := val6 a r) (n := n) _ _
    (fun s hs => ⟨hload s (otherAlgos_simple s hs), hcol (otherAlgos_simple s hs)⟩)
    (by
      intro p hp
      obtain ⟨j, hj, rfl⟩ := List.mem_map.1 hp
      exact List.mem_range.1 (List.mem_filter.1 hj).1), Res.ok_bind]
  obtain ⟨ps, e, hps⟩ := eachRes_any (f := fun p : Nat × P => do
        let q ← update8 t.datas a r p.1 (strategy1 :: otherAlgos) p.2
        return (p.1, q)) (Q := fun p q => q.1 = p.1)
    (((((List.range n).filter fun j => inInterval (Value.num (val6 a r strategy1)).toNum ((t.datas.col strategy1).getD j 0)
      (interval8 strategy1 / 10)).map fun j => (j, Prob8.one)) : List (Nat × P)).filter fun p => otherAlgos.all (in8 t.datas (val6 a r) p.1)) (by
      intro p hp
      obtain ⟨hp, hall⟩ := List.mem_filter.1 hp
      obtain ⟨j, hj, rfl⟩ := List.mem_map.1 hp
      obtain ⟨hj, hin⟩ := List.mem_filter.1 hj
      obtain ⟨q, eq⟩ := update8_any (P := P) (val := val6 a r) (n := n) (List.mem_range.1 hj) (strategy1 :: otherAlgos) Prob8.one (by
        intro s hs
        have hss := algos8_simple s hs
        refine ⟨hss, hload s hss, (hv s hss).2, hcol hss, ?_⟩
        rcases List.mem_cons.1 hs with rfl | hs
        · exact hin
        · exact List.all_eq_true.1 hall s hs)
      exact ⟨(j, q), by simp only [eq]; rfl, rfl⟩)
  refine ⟨ps, e, ?_⟩
  intro q hq
  obtain ⟨p, hp, e1⟩ := hps q hq
  obtain ⟨hp, hall⟩ := List.mem_filter.1 hp
  obtain ⟨j, hj, rfl⟩ := List.mem_map.1 hp
  obtain ⟨hj, hin⟩ := List.mem_filter.1 hj
  rw [e1]
  refine ⟨List.mem_range.1 hj, ?_⟩
  intro s hs
  have hk := feat_k s.1
  have := (hv s hs).2
  have hin8 : in8 t.datas (val6 a r) j s = true := by
    rcases simple_algos s hs with rfl | hs
    · exact hin
    · exact List.all_eq_true.1 hall s hs
  unfold in8 at hin8
  rw [interval8_simple s hs, inInterval_any _ (by omega) (by omega)] at hin8
  exact hin8

/-! ## Complex strategies -/

theorem complexLoop8_any {V : Type} {rel : Rel V} {tab : List V} {value : V} {n : Nat} (ps : List (Nat × P)) (hl : ∀ p ∈ ps, p.1 < n)
    (h : ∀ j < n, ∃ v x, rd tab j = .ok v ∧ rel.compute v value = .ok x) :
    ∃ ps', complexLoop Prob8.scale rel tab value ps = .ok ps' ∧ ∀ q ∈ ps', q.1 < n := by
  induction ps with
  | nil => exact ⟨[], rfl, by simp⟩
  | cons p ps ih =>
    obtain ⟨v, x, e1, e2⟩ := h p.1 (hl p (by simp))
    obtain ⟨ps', e3, h3⟩ := ih fun q hq => hl q (by simp [hq])
    rw [complexLoop, e1, Res.ok_bind, e2, Res.ok_bind, e3, Res.ok_bind]
    by_cases hx : uadd (usub rel.count 1) 1 / 2 ≤ x
    · rw [if_pos hx]
      refine ⟨_, rfl, ?_⟩
      intro q hq
      rcases List.mem_cons.1 hq with rfl | hq
      · exact hl p (by simp)
      · exact h3 q hq
    · rw [if_neg hx]
      exact ⟨_, rfl, h3⟩

theorem hbar_loop8_any {d : Datas} {n : Nat} (h : Tabs d n) {a r : Image} (ha : Sized a) (hr : a.rotate90 = .ok r) {p : Policy}
    (hp : (Feat.hbar, p) ∈ registered) : ∃ v, (d.strat6 (.hbar, p)).load a r = .ok v ∧ ∀ ps : List (Nat × P), (∀ q ∈ ps, q.1 < n) →
      ∃ ps', complexLoop Prob8.scale (d.strat6 (.hbar, p)).rel (d.strat6 (.hbar, p)).tab v ps = .ok ps' ∧ ∀ q ∈ ps', q.1 < n := by
  obtain ⟨m, e⟩ := feature_hbar ha (ha.rotated hr) .img
  refine ⟨m, ?_, ?_⟩
  · show (do return (← toolLoad (.hbar, p) a r).toNum : Res Nat) = _
    rw [toolLoad_eq, e]; rfl
  · intro ps hl
    refine complexLoop8_any ps hl ?_
    intro j hj
    have hql : j < ((d.get (.hbar, p)).map Value.toNum).length := by rw [List.length_map, h.len _ hp]; exact hj
    exact ⟨((d.get (.hbar, p)).map Value.toNum)[j], if ((d.get (.hbar, p)).map Value.toNum)[j] = m then 1 else 0, rd_of_lt hql, rfl⟩

theorem alternations_loop8_any {d : Datas} {n : Nat} (h : Tabs d n) {a r : Image} (ha : Sized a) (hr : a.rotate90 = .ok r) :
    ∃ v, (d.strat6 (.alternations, .img)).load a r = .ok v ∧ ∀ ps : List (Nat × P), (∀ q ∈ ps, q.1 < n) →
      ∃ ps', complexLoop Prob8.scale (d.strat6 (.alternations, .img)).rel (d.strat6 (.alternations, .img)).tab v ps = .ok ps' ∧
        ∀ q ∈ ps', q.1 < n := by
  obtain ⟨y, e, hy⟩ := feature_alternations ha (ha.rotated hr)
  have hreg : (Feat.alternations, Policy.img) ∈ registered := by decide
  refine ⟨y, ?_, ?_⟩
  · show (do return (← toolLoad (.alternations, .img) a r).toAlt : Res _) = _
    rw [toolLoad_eq, e]; rfl
  · intro ps hl
    refine complexLoop8_any ps hl ?_
    intro j hj
    have hql' : j < (d.get (.alternations, .img)).length := by rw [h.len _ hreg]; exact hj
    obtain ⟨x, ex, hx⟩ : ∃ l, (d.get (.alternations, .img))[j] = .alt l ∧ l.length = 7 :=
      h.shaped _ hreg _ (List.getElem_mem hql')
    have et : ((d.get (.alternations, .img)).map Value.toAlt)[j]? = some x := by
      rw [List.getElem?_map, List.getElem?_eq_getElem hql', ex]; rfl
    exact ⟨x, _, rd_of_getElem? et, (arrayRel_agree hx hy).1⟩

theorem reduceComplex8_any {d : Datas} {n : Nat} (h : Tabs d n) {a r : Image} (ha : Sized a) (hr : a.rotate90 = .ok r)
    {ps : List (Nat × P)} (hl : ∀ q ∈ ps, q.1 < n) :
    ∃ ps', reduceComplex6 Prob8.scale a r (complexStrats.map d.strat6) ps = .ok ps' ∧ ∀ q ∈ ps', q.1 < n := by
  obtain ⟨v1, l1, f1⟩ := hbar_loop8_any (P := P) h ha hr (p := .img) (by decide)
  obtain ⟨v2, l2, f2⟩ := hbar_loop8_any (P := P) h ha hr (p := .img90) (by decide)
  obtain ⟨v3, l3, f3⟩ := alternations_loop8_any (P := P) h ha hr
  obtain ⟨p1, e1, m1⟩ := f1 ps hl
  obtain ⟨p2, e2, m2⟩ := f2 p1 m1
  obtain ⟨p3, e3, m3⟩ := f3 p2 m2
  have el : complexStrats.map d.strat6 = [d.strat6 (.hbar, .img), d.strat6 (.hbar, .img90), d.strat6 (.alternations, .img)] := rfl
  refine ⟨p3, ?_, m3⟩
  rw [el, reduceComplex6, l1, Res.ok_bind, e1, Res.ok_bind, reduceComplex6, l2, Res.ok_bind, e2, Res.ok_bind, reduceComplex6, l3,
    Res.ok_bind, e3, Res.ok_bind]
  rfl

omit [Prob8 P] in
theorem gather6_any {words : List Words} {stop : P → Bool} : ∀ ps : List (Nat × P), (∀ p ∈ ps, p.1 < words.length) →
    ∃ r, gather6 words stop ps = .ok r ∧ (∀ w ∈ r, ∃ v ∈ words, w ∈ v) ∧
      ∀ p l w, ps = p :: l → stop p.2 = false → (words.getD p.1 []).head? = some w → r.head? = some w
  | [], _ => ⟨[], rfl, by simp, by intro p l w h; cases h⟩
  | p :: ps, h => by
    have hp := h p (by simp)
    rw [gather6]
    cases hs : stop p.2 with
    | true =>
      refine ⟨[], rfl, by simp, ?_⟩
      intro q l w e h0
      cases e
      rw [hs] at h0; cases h0
    | false =>
      obtain ⟨r, e, h1, _⟩ := gather6_any ps fun q hq => h q (by simp [hq])
      rw [if_neg (by simp), rd_of_lt hp, Res.ok_bind, e]
      refine ⟨_, rfl, ?_, ?_⟩
      · intro w hw
        rcases List.mem_append.1 hw with hw | hw
        · exact ⟨_, List.getElem_mem hp, hw⟩
        · exact h1 w hw
      · intro q l w eq _ hw
        cases eq
        rw [getD_of_lt hp] at hw
        cases hc : words[p.1] with
        | nil => rw [hc] at hw; cases hw
        | cons x v => rw [hc] at hw; exact hw

end

/-! ## A letter -/

/-- With features that are whole a letter is read, or a division by 0 is met. -/
theorem letter8_any {P : Type} [LawfulProb8 P] (S : StdSort) {t : Tab8} (hf : Tabs t.datas t.words.length) (hs : t.datas.size = t.words.length)
    (hbw0 : makeByWord (t.words.map some) = .ok t.byWords) (hne : [] ∉ t.words) (hn : t.words.length < W32) (hnw : NoWrap t.datas)
    {a r : Image} (ha : Sized a) (hr : a.rotate90 = .ok r) :
    (∃ o, computeLetter8 P S t a r = .ok o ∧ Gives6 t.words o) ∨ (computeLetter8 P S t a r = .ub ∧ ¬ Divides t.datas a) := by
  obtain ⟨ps, eps, hps'⟩ := candidates8_any (P := P) hf hs rfl hn ha hr
  have hps : ∀ q ∈ ps, q.1 < t.words.length := fun q hq => (hps' q hq).1
  have hhd : ∀ (j : Nat), j < t.words.length → ∀ w, (t.words.getD j []).head? = some w → ∃ v ∈ t.words, v.head? = some w := by
    intro j hj w hw
    rw [List.getD_eq_getElem?_getD, List.getElem?_eq_getElem hj] at hw
    exact ⟨_, List.getElem_mem hj, hw⟩
  obtain ⟨tmp, etmp, hsub, _, _⟩ := sortShow8_ok S (words := t.words) (ps := ps) hps
  unfold computeLetter8
  rw [eps, Res.ok_bind, etmp, Res.ok_bind]
  cases tmp with
  | nil => exact .inl ⟨_, rfl, by simp, by simp, fun _ => ⟨rfl, rfl⟩, .inr rfl⟩
  | cons best rest =>
    have hbest : best ∈ ps := hsub best (by simp)
    obtain ⟨r1, er1, hr1⟩ := getWord_ok hne (hps best hbest)
    have hfirst := hhd best.1 (hps best hbest) r1 hr1
    simp only []
    rw [er1, Res.ok_bind]
    cases hbb : Prob8.le Prob8.one best.2 with
    | true =>
      rw [if_pos rfl]
      obtain ⟨l, el, hl1, hl2⟩ := gather6_any (words := t.words) (stop := fun p : P => !Prob8.le Prob8.one p) (best :: rest)
        (fun q hq => hps q (hsub q hq))
      have hhead := hl2 best rest r1 rfl (by simp [hbb]) hr1
      rw [el, Res.ok_bind]
      left
      refine ⟨_, rfl, hl1, fun _ => ⟨rfl, hhead⟩, ?_, .inl hfirst⟩
      intro h0
      simp only [] at h0
      rw [h0] at hhead
      cases hhead
    | false =>
      rw [if_neg (by simp)]
      obtain ⟨p1, e1, m1⟩ := reduceComplex8_any hf ha hr hps
      rw [e1, Res.ok_bind, reduceExclusive6_eq]
      obtain ⟨bw, ebw, lbw, hbw⟩ := makeByWord_map hne
      rw [ebw, Res.ok.injEq] at hbw0
      rw [← hbw0]
      have hin : ∀ p ∈ p1, p.1 < bw.length := fun p hp => by rw [lbw]; exact m1 p hp
      have hlt : ∀ l ∈ bw, ∀ j ∈ l, j < t.words.length := by
        intro l hl j hj
        obtain ⟨g, hg⟩ := List.getElem?_of_mem hl
        have hgl : g < t.words.length := by rw [← lbw]; exact (List.getElem?_eq_some_iff.1 hg).1
        exact ((hbw g j hgl).1 (by rw [List.getD_eq_getElem?_getD, hg]; exact hj)).1
      by_cases hst : ∃ p ∈ p1, Stuck bw (exclusiveStrats.map t.datas.strat) a r p.1
      · right
        rw [reduceExclusive_stuck bw (exclusiveStrats.map t.datas.strat) (exclusive_loads ha) p1 hin
          (fun l hl j hj s hs => exclusive_or hf hnw ha hs (hlt l hl j hj)) hst, Res.ub_bind]
        refine ⟨rfl, ?_⟩
        intro hd
        obtain ⟨p, hp, pre, j, post, e, _, hbr⟩ := hst
        refine not_broken (fun t ht => exclusive_any hf hnw ha hd ht ?_) hbr
        exact ((hbw p.1 j (m1 p hp)).1 (by rw [e]; simp)).1
      · left
        rw [reduceExclusive_ok bw (exclusiveStrats.map t.datas.strat) (exclusive_loads ha) p1 hin
          (fun p hp hs => hst ⟨p, hp, hs⟩), Res.ok_bind]
        have hsubp : ∀ q ∈ p1.filter (fun p => wordKeep bw (exclusiveStrats.map t.datas.strat) a r p.1), q ∈ p1 :=
          fun q hq => (List.mem_filter.1 hq).1
        obtain ⟨fin, efin, fsub, _, _⟩ := sortShow8_ok S (words := t.words)
          (ps := p1.filter fun p => wordKeep bw (exclusiveStrats.map t.datas.strat) a r p.1)
          (fun q hq => m1 q (hsubp q hq))
        have hfin : ∀ q ∈ fin, q ∈ p1 := fun q hq => hsubp q (fsub q hq)
        rw [efin, Res.ok_bind]
        cases fin with
        | nil => exact ⟨_, rfl, by simp, by simp, fun _ => ⟨rfl, rfl⟩, .inl hfirst⟩
        | cons first fin =>
          obtain ⟨r2, er2, hr2⟩ := getWord_ok hne (m1 first (hfin first (by simp)))
          obtain ⟨l, el, hl1, hl2⟩ := gather6_any (words := t.words) (stop := fun p : P => Prob8.less p first.2) (first :: fin)
            (fun q hq => m1 q (hfin q hq))
          have hhead := hl2 first fin r2 rfl (by
            show (!Prob8.le first.2 first.2) = false
            rw [le_refl8]; rfl) hr2
          simp only []
          rw [el, Res.ok_bind, er2, Res.ok_bind]
          refine ⟨_, rfl, hl1, fun _ => ⟨rfl, hhead⟩, ?_, .inl hfirst⟩
          intro h0
          simp only [] at h0
          rw [h0] at hhead
          cases hhead

/-! ## The tables -/

/-- The tables, when all rows are the same. -/
theorem tab8_any (S : StdSort) (mv : List Nat → List Nat) {d : Datas} {ws : List Words} (h : d.Fits) (hl : ws.length = d.size) (hne : [] ∉ ws)
    (hn : d.size < W32) (hall : ∀ i j, i < d.size → j < d.size → row d.tables i = row d.tables j) :
    ∃ p bw t, prepare8 S mv d ws = .ok p ∧ makeByWord p.words = .ok bw ∧ tab8 d p bw = .ok t ∧ t.words.Perm ws ∧ t.byWords = bw ∧
      makeByWord (t.words.map some) = .ok bw ∧ t.datas.Fits ∧ t.datas.size = d.size ∧ ∀ y, BorderPart t.datas y → BorderPart d y := by
  by_cases h1 : 1 < ws.length
  · obtain ⟨idx, hp, ep⟩ := prepare8_same S mv h hl h1 (by omega) hall
    obtain ⟨w, ew, wl, wk, wp⟩ := C54_reindex [] idx ws (by rw [hl]; exact hp)
    obtain ⟨cs, ts', ec, et, h1, h2⟩ := columns6_ok hp d.tables h.same
    have hlen : idx.length = d.size := by rw [hp.length_eq, List.length_range]
    have hmem : ∀ t' ∈ ts', ∃ t ∈ d.tables, t'.strat = t.strat ∧ t'.vals.length = d.size ∧ ∀ v ∈ t'.vals, v ∈ t.vals := by
      intro t' ht'
      obtain ⟨t, ht, e1, e2, e3⟩ := h2 t' ht'
      refine ⟨t, ht, e1, e2, ?_⟩
      intro v hv
      obtain ⟨k, hk⟩ := List.getElem?_of_mem hv
      have hk' : k < idx.length := by rw [hlen, ← e2]; exact (List.getElem?_eq_some_iff.1 hk).1
      rw [e3 k _ (List.getElem?_eq_getElem hk')] at hk
      exact List.mem_of_getElem? hk
    have hsz : (⟨ts', Ctxs.fresh⟩ : Datas).size = d.size := by
      cases hts : ts' with
      | nil => rw [hts, h.strats] at h1; cases h1
      | cons t' l =>
        obtain ⟨_, _, _, e, _⟩ := hmem t' (by rw [hts]; simp)
        exact e
    have hne' : [] ∉ w := fun hm => hne (wp.mem_iff.1 hm)
    obtain ⟨bw, eb, _⟩ := makeByWord_map hne'
    refine ⟨⟨w.map some, cs, idx⟩, bw, ⟨w, ⟨ts', Ctxs.fresh⟩, bw⟩, ?_, eb, ?_, wp, rfl, eb, ⟨h1.trans h.strats, by rw [hsz]; exact h.size, ?_, ?_⟩, hsz, ?_⟩
    · rw [ep, ew, Res.ok_bind, ec]; rfl
    · unfold tab8
      simp only []
      rw [unmoved_some, Res.ok_bind, et]
      rfl
    · intro t' ht'
      rw [hsz]
      exact (hmem t' ht').choose_spec.2.2.1
    · intro t' ht' v hv
      obtain ⟨t, ht, e, _, hvs⟩ := hmem t' ht'
      rw [e]
      exact h.vals t ht v (hvs v hv)
    · rintro y ⟨t', ht', e, l, hl', hy⟩
      obtain ⟨t, ht, e1, _, hv⟩ := hmem t' ht'
      exact ⟨t, ht, by rw [← e1, e], l, hv _ hl', hy⟩
  · obtain ⟨bw, eb, _⟩ := makeByWord_map hne
    refine ⟨⟨ws.map some, d.tables.map fun t => t.vals.map some, List.range ws.length⟩, bw,
      ⟨ws, ⟨d.tables, Ctxs.fresh⟩, bw⟩, ?_, eb, ?_, List.Perm.refl _, rfl, eb, ⟨h.strats, h.size, h.same, h.vals⟩, rfl, fun y hy => hy⟩
    · unfold prepare8
      rw [if_neg h1]
    · unfold tab8
      simp only []
      rw [unmoved_some, Res.ok_bind, columns6_id]
      rfl

/-! ## Features that are not whole -/

/-- `ok` or undefined. -/
def Res.OkUb {α : Type} (r : Res α) : Prop := r = .ub ∨ ∃ a, r = .ok a

theorem Res.OkUb.bind {α β : Type} {r : Res α} {f : α → Res β} (h : r.OkUb) (hf : ∀ a, r = .ok a → (f a).OkUb) : (r >>= f).OkUb := by
  rcases h with h | ⟨a, h⟩
  · rw [h]; exact .inl rfl
  · rw [h, Res.ok_bind]; exact hf a h

theorem rd_okub {α : Type} (l : List α) (i : Nat) : (rd l i).OkUb := by
  by_cases h : i < l.length
  · exact .inr ⟨_, rd_of_lt h⟩
  · left
    unfold rd
    rw [List.getElem?_eq_none (by omega)]

theorem rowEq_okub (i j : Nat) : ∀ ts : List Table, (rowEq i j ts).OkUb
  | [] => .inr ⟨_, rfl⟩
  | t :: ts => by
    rw [rowEq]
    refine (rd_okub _ _).bind fun a _ => (rd_okub _ _).bind fun b _ => ?_
    split
    · exact rowEq_okub i j ts
    · exact .inr ⟨_, rfl⟩

theorem findRow_okub (d : Datas) (i : Nat) : ∀ js, findRow d i js = .ub ∨ ∃ k, findRow d i js = .ok k ∧ k ≤ js.length
  | [] => .inr ⟨_, rfl, Nat.le_refl _⟩
  | j :: js => by
    rw [findRow]
    rcases rowEq_okub j i d.tables with e | ⟨b, e⟩
    · rw [e]; exact .inl rfl
    · rw [e, Res.ok_bind]
      cases b with
      | true => exact .inr ⟨0, rfl, Nat.zero_le _⟩
      | false =>
        rcases findRow_okub d i js with e | ⟨k, e, hk⟩
        · left
          show (do let k ← findRow d i js; return k + 1 : Res Nat) = .ub
          rw [e]; rfl
        · right
          refine ⟨k + 1, ?_, by simpa using hk⟩
          show (do let k ← findRow d i js; return k + 1 : Res Nat) = _
          rw [e]; rfl

theorem mergeAt_okub (mv : List Nat → List Nat) (idx : List Nat) (k : Nat) (m : Merge) : (mergeAt mv idx k m).OkUb := by
  unfold mergeAt
  refine (rd_okub _ _).bind fun a _ => (rd_okub _ _).bind fun b _ => (rd_okub _ _).bind fun va _ => (rd_okub _ _).bind fun vb _ => ?_
  obtain ⟨r, e, _⟩ := uniqueBy_words (setUnion mv va vb).1
  simp only [e, Res.ok_bind]
  exact .inr ⟨_, rfl⟩

theorem mergeRun_okub (mv : List Nat → List Nat) (idx : List Nat) : ∀ n k m, (mergeRun mv idx n k m).OkUb
  | 0, _, _ => .inr ⟨_, rfl⟩
  | n + 1, k, m => by
    rw [mergeRun]
    exact (mergeAt_okub mv idx k m).bind fun m _ => mergeRun_okub mv idx n (k + 1) m

theorem mergeFrom_okub (mv : List Nat → List Nat) (d : Datas) (idx : List Nat) : ∀ fuel first m, first ≤ idx.length → idx.length < fuel + first →
    (mergeFrom mv d idx fuel first m).OkUb
  | 0, first, m, h1, h2 => by omega
  | fuel + 1, first, m, h1, h2 => by
    rw [mergeFrom]
    split
    · exact .inr ⟨_, rfl⟩
    · refine (rd_okub _ _).bind fun i _ => ?_
      rcases findRow_okub d i (idx.drop (first + 1)) with e | ⟨k, e, hk⟩
      · rw [e]; exact .inl rfl
      · rw [e, Res.ok_bind]
        rw [List.length_drop] at hk
        exact (mergeRun_okub mv idx k (first + 1) m).bind fun m _ => mergeFrom_okub mv d idx fuel _ m (by omega) (by omega)

theorem wrAt_okub {α : Type} (l : List α) (i : Nat) (x : α) : wrAt l i x = .ub ∨ ∃ l', wrAt l i x = .ok l' ∧ l'.length = l.length := by
  unfold wrAt
  split
  · exact .inr ⟨_, rfl, List.length_set ..⟩
  · exact .inl rfl

theorem skipDup_okub (dup : List Nat) (p : Nat) : ∀ fuel f, 0 < fuel → dup.length < fuel + f → (skipDup dup p fuel f).OkUb
  | 0, f, h0, h => by
    omega
  | fuel + 1, f, h0, h => by
    rw [skipDup]
    refine (rd_okub _ _).bind fun x hx => ?_
    have hf := (List.getElem?_eq_some_iff.1 (rd_eq_ok.1 hx)).1
    split
    · exact skipDup_okub dup p fuel (f + 1) (by omega) (by omega)
    · exact .inr ⟨_, rfl⟩

theorem copyKept_okub (dup : List Nat) : ∀ n p f out idx, copyKept dup n p f out idx = .ub ∨
    ∃ r, copyKept dup n p f out idx = .ok r ∧ r.2.length = idx.length
  | 0, _, _, out, idx => .inr ⟨_, rfl, rfl⟩
  | n + 1, p, f, out, idx => by
    rw [copyKept]
    rcases rd_okub dup f with e | ⟨x, e⟩
    · rw [e]; exact .inl rfl
    rw [e, Res.ok_bind]
    rcases skipDup_okub dup p (dup.length + 1) f (by omega) (by omega) with e | ⟨f', e⟩
    · rw [e]; exact .inl rfl
    rw [e, Res.ok_bind]
    split
    · rcases rd_okub idx p with e | ⟨v, e⟩
      · rw [e]; exact .inl rfl
      rw [e, Res.ok_bind]
      rcases wrAt_okub idx out v with e | ⟨idx', e, hl⟩
      · rw [e]; exact .inl rfl
      rw [e, Res.ok_bind, ← hl]
      exact copyKept_okub dup n _ _ _ idx'
    · exact copyKept_okub dup n _ _ _ idx

theorem wrFrom_okub : ∀ vs k idx, wrFrom vs k idx = .ub ∨ ∃ r, wrFrom vs k idx = .ok r ∧ r.length = idx.length
  | [], _, idx => .inr ⟨_, rfl, rfl⟩
  | v :: vs, k, idx => by
    rw [wrFrom]
    rcases wrAt_okub idx k v with e | ⟨idx', e, hl⟩
    · rw [e]; exact .inl rfl
    rw [e, Res.ok_bind, ← hl]
    exact wrFrom_okub vs _ idx'

theorem dropDups_okub (dup idx : List Nat) : dropDups dup idx = .ub ∨ ∃ r, dropDups dup idx = .ok r ∧ r.length = idx.length := by
  unfold dropDups
  split
  · split
    · exact .inl rfl
    · rename_i a b _ _ _
      rcases copyKept_okub dup (b - (a + 1)) (a + 1) 1 (a + 1) idx with e | ⟨r, e, hl⟩
      · rw [e]; exact .inl rfl
      rw [e, Res.ok_bind]
      split
      · exact .inl rfl
      · rw [← hl]
        exact wrFrom_okub _ _ _
  · exact .inr ⟨_, rfl, rfl⟩

theorem moveLoop_okub {α : Type} : ∀ (is : List Nat) (k : Nat) (cont new : List (Option α)), (moveLoop is k cont new).OkUb
  | [], _, _, _ => .inr ⟨_, rfl⟩
  | i :: is, k, cont, new => by
    rw [moveLoop]
    refine (rd_okub _ _).bind fun x _ => ?_
    rcases wrAt_okub new k x with e | ⟨_, e, _⟩
    · rw [e]; exact .inl rfl
    rw [e, Res.ok_bind]
    rcases wrAt_okub cont i none with e | ⟨_, e, _⟩
    · rw [e]; exact .inl rfl
    rw [e, Res.ok_bind]
    exact moveLoop_okub is _ _ _

theorem reindexTables_stuck {idx : List Nat} : ∀ {ts : List Table}, idx ≠ [] → (∃ t ∈ ts, t.vals = []) → reindexTables idx ts = .ub
  | [], _, h => by obtain ⟨t, ht, _⟩ := h; cases ht
  | t :: ts, hi, h => by
    unfold reindexTables
    by_cases ht : t.vals = []
    · rw [ht]
      cases idx with
      | nil => exact absurd rfl hi
      | cons i is => rfl
    · rcases moveLoop_okub idx 0 (t.vals.map some) (List.replicate t.vals.length (some (.num 0))) with e | ⟨r, e⟩
      · unfold reindex
        rw [e]; rfl
      · unfold reindex
        rw [e, Res.ok_bind, reindexTables_stuck hi (by
          obtain ⟨u, hu, h0⟩ := h
          rcases List.mem_cons.1 hu with rfl | hu
          · exact absurd h0 ht
          · exact ⟨u, hu, h0⟩)]
        rfl

/-- Features that are not whole: with more than one glyph the tables are not made. -/
theorem prepare8_ub (S : StdSort) (mv : List Nat → List Nat) {f : TextFile} {d : Datas} {ws : List Words} (h : loadDatas f = .ok d)
    (hw : ¬ Whole d) (hl : ws.length = d.size) (h1 : 1 < ws.length) (hn : d.size < W32) : prepare8 S mv d ws = .ub := by
  obtain ⟨hstr, hshape⟩ := loadDatas_shaped h
  have hcol := (loadDatas_fits h).1
  have hex : ∃ t ∈ d.tables, t.vals = [] := by
    have : ∃ t ∈ d.tables, ¬ t.vals.length = d.size := Classical.byContradiction fun hn => hw fun t ht =>
      Classical.byContradiction fun hc => hn ⟨t, ht, hc⟩
    obtain ⟨t, ht, hne⟩ := this
    rcases hcol t ht with h1 | h1
    · exact absurd h1 hne
    · exact ⟨t, ht, h1⟩
  unfold prepare8
  simp only []
  rw [if_pos h1, Nat.mod_eq_of_lt hn, List.length_range, decide_eq_true rfl, assert_true, Res.ok_bind]
  obtain ⟨u, hu, hus, eu⟩ := get_any hstr (s := strategy1) (by decide)
  rcases hcol u hu with hlen | hnil
  · have hnum : ∀ k : Nat, k < d.size → ∃ n, (d.get strategy1)[k]? = some (.num n) := by
      intro k hk
      have hk' : k < u.vals.length := by omega
      have := hshape u hu u.vals[k] (List.getElem_mem _)
      rw [hus] at this
      obtain ⟨n, e⟩ := this
      exact ⟨n, by rw [eu, List.getElem?_eq_getElem hk', e]⟩
    obtain ⟨idx, es, hp, _⟩ := sortRes_ok (S := S) (lt := ltFirst d) (l := List.range d.size) (R := fun a b => key8 d a < key8 d b)
      (by
        intro a ha b hb
        obtain ⟨n, e1⟩ := hnum a (by simpa using ha)
        obtain ⟨m, e2⟩ := hnum b (by simpa using hb)
        refine ⟨decide (key8 d a < key8 d b), ?_, by simp⟩
        unfold ltFirst key8
        rw [rd_of_getElem? e1, Res.ok_bind, rd_of_getElem? e2, Res.ok_bind, List.getD_eq_getElem?_getD, List.getD_eq_getElem?_getD, e1, e2]
        rfl)
      (by intro a _; omega) (by intro a _ b _ c _ h1 h2; omega) (by intro a _ b _ c _ h1 h2 h3 h4; omega)
    have hil : idx.length = d.size := by rw [hp.length_eq, List.length_range]
    rw [es, Res.ok_bind]
    rcases mergeFrom_okub mv d idx (idx.length + 1) 0 ⟨ws, []⟩ (by omega) (by omega) with e | ⟨m, e⟩
    · rw [e]; rfl
    rw [e, Res.ok_bind]
    rcases dropDups_okub m.dups idx with e | ⟨idx', e, hl'⟩
    · rw [e]; rfl
    rw [e, Res.ok_bind]
    rcases moveLoop_okub idx' 0 (m.views.map some) (List.replicate m.views.length (some [])) with e | ⟨w, e⟩
    · unfold reindex
      rw [e]; rfl
    unfold reindex
    rw [e, Res.ok_bind, reindexTables_stuck ?_ hex]
    · rfl
    · intro h0
      rw [h0] at hl'
      simp only [List.length_nil] at hl'
      omega
  · have : sortRes S (ltFirst d) (List.range d.size) = .ub := by
      unfold sortRes
      rw [if_neg]
      intro hall
      rw [List.all_eq_true] at hall
      have h0 := hall 0 (by rw [List.mem_range]; omega)
      rw [List.all_eq_true] at h0
      have h1 := h0 0 (by rw [List.mem_range]; omega)
      unfold ltFirst at h1
      rw [eu, hnil] at h1
      cases h1
    rw [this]
    rfl

end Ppocr

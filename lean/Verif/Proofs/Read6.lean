import Verif.Proofs.Word6

/-! # Helper lemmas: the reading of a letter in `extract_text6` -/

namespace Ppocr
open Spec Props

/-! ## Tests -/

theorem all_testOf {a r : Image} {j : Nat} : ∀ ss : List Strat,
    (ss.all fun s => testOf s a r j) = true ↔ ¬ Refused ss a r j ∧ ¬ Broken ss a r j := by
  intro ss
  induction ss with
  | nil => exact ⟨fun _ => ⟨refused_nil, broken_nil⟩, fun _ => rfl⟩
  | cons s ss ih =>
    rw [List.all_cons, Bool.and_eq_true, ih, refused_cons, broken_cons]
    unfold testOf
    cases h : testRun s a r j with
    | ok b => cases b <;> simp [valueOr]
    | throw => simp [valueOr]
    | abort => simp [valueOr]
    | ub => simp [valueOr]
    | diverge => simp [valueOr]

theorem first_of {α : Type} {P : α → Prop} : ∀ {l : List α}, (∃ j ∈ l, P j) → ∃ pre j post, l = pre ++ j :: post ∧
    (∀ k ∈ pre, ¬ P k) ∧ P j := by
  intro l
  induction l with
  | nil => rintro ⟨j, hj, _⟩; cases hj
  | cons a l ih =>
    rintro ⟨j, hj, h⟩
    by_cases ha : P a
    · exact ⟨[], a, l, rfl, by simp, ha⟩
    · rcases List.mem_cons.1 hj with rfl | hj
      · exact absurd h ha
      · obtain ⟨pre, k, post, e, h1, h2⟩ := ih ⟨j, hj, h⟩
        refine ⟨a :: pre, k, post, by rw [e]; rfl, ?_, h2⟩
        intro x hx
        rcases List.mem_cons.1 hx with rfl | hx
        · exact ha
        · exact h1 x hx

/-! ## The features of a letter -/

/-- The feature of the letter. -/
def val6 (a r : Image) (s : Feat × Policy) : Nat := (valueOr (.num 0) (feature (s.1, .img) a r)).toNum

theorem img_simple : ∀ s ∈ simpleStrats, (s.1, Policy.img) ∈ simpleStrats := by decide

theorem val6_ok {a r : Image} (ha : Sized a) (hr : Sized r) : ∀ s ∈ simpleStrats,
    feature (s.1, .img) a r = .ok (.num (val6 a r s)) ∧ val6 a r s ≤ s.1.k := by
  intro s hs
  obtain ⟨n, e, hn⟩ := feature_simple (img_simple s hs) ha hr
  unfold val6
  rw [e]
  exact ⟨rfl, hn⟩

/-- The pictures, their words and features, and the glyphs by words. -/
structure Taught (imgs : List Image) (ws : List Words) (d : Datas) (bw : List (List Nat)) : Prop where
  learnt : Learnt imgs d
  sized : ∀ i ∈ imgs, Sized i
  len : ws.length = imgs.length
  ne : [] ∉ ws
  byWords : makeByWord (ws.map some) = .ok bw

/-- What is known once the tables are built. -/
structure Ready6 (imgs : List Image) (ws : List Words) (d : Datas) (t : Tab6) : Prop where
  learnt : Learnt imgs d
  sized : ∀ i ∈ imgs, Sized i
  len : ws.length = imgs.length
  ne : [] ∉ ws
  small : imgs.length + 63 < W32
  sorted : (d.col strategy1).Pairwise (· ≤ ·)
  built : Built d ws t

theorem Ready6.taught {imgs : List Image} {d : Datas} {ws : List Words} {t : Tab6} (h : Ready6 imgs ws d t) :
    Taught imgs ws d t.byWords := ⟨h.learnt, h.sized, h.len, h.ne, h.built.byWords⟩

section
variable {imgs : List Image} {d : Datas} {ws : List Words} {t : Tab6}

theorem col_entry (h : Learnt imgs d) (hi : ∀ i ∈ imgs, Sized i) {s : Feat × Policy} (hs : s ∈ simpleStrats) {j : Nat} {i ri : Image}
    (hj : imgs[j]? = some i) (hri : i.rotate90 = .ok ri) : feature s i ri = .ok (.num ((d.col s).getD j 0)) := by
  have hsi := hi i (List.mem_of_getElem? hj)
  obtain ⟨x, ex, _⟩ := feature_simple hs hsi (hsi.rotated hri)
  have := rd_eq_ok.1 (get_entry h (simpleStrats_registered hs) hj hri ex Value.toNum)
  have e : (d.col s).getD j 0 = x := by
    unfold Datas.col
    rw [List.getD_eq_getElem?_getD, this]
    rfl
  rw [e, ex]

theorem col_le (h : Learnt imgs d) (hi : ∀ i ∈ imgs, Sized i) {s : Feat × Policy} (hs : s ∈ simpleStrats) :
    (d.col s).length = imgs.length ∧ ∀ x ∈ d.col s, x ≤ s.1.k := by
  have hl : (d.col s).length = imgs.length := by
    unfold Datas.col
    rw [List.length_map, (get_learnt h (simpleStrats_registered hs)).1]
  refine ⟨hl, ?_⟩
  intro x hx
  obtain ⟨v, hv, rfl⟩ := List.mem_map.1 hx
  obtain ⟨i, r, _, hi', hr, _, e⟩ := get_mem h hi (simpleStrats_registered hs) hv
  obtain ⟨n, e', hn⟩ := feature_simple hs hi' hr
  rw [e, Res.ok.injEq] at e'
  subst e'
  exact hn

theorem Ready6.cols (h : Ready6 imgs ws d t) : Cols6 d imgs.length := by
  refine ⟨h.small, fun s hs => (col_le h.learnt h.sized hs).1, ?_, h.sorted⟩
  intro s hs x hx
  have := (col_le h.learnt h.sized hs).2 x hx
  have := feat_k s.1
  simp only [W32]
  omega

theorem match_iff (h : Ready6 imgs ws d t) {a r : Image} (ha : Sized a) (hr : a.rotate90 = .ok r) {j : Nat} {i : Image}
    (hj : imgs[j]? = some i) : simpleStrats.all (same6 d (val6 a r) j) = true ↔ Exact6 i a := by
  have hsi := h.sized i (List.mem_of_getElem? hj)
  obtain ⟨ri, hri, _⟩ := hsi.rotate
  have hv := val6_ok ha (ha.rotated hr)
  rw [List.all_eq_true]
  constructor
  · intro hall
    refine ⟨ri, r, hri, hr, fun s hs => ⟨_, _, col_entry h.learnt h.sized hs hj hri, (hv s hs).1, ?_⟩⟩
    exact of_decide_eq_true (hall s hs)
  · rintro ⟨ri', ra, h1, h2, hall⟩ s hs
    rw [hri] at h1; cases h1
    rw [hr] at h2; cases h2
    obtain ⟨x, y, e1, e2, e3⟩ := hall s hs
    rw [col_entry h.learnt h.sized hs hj hri] at e1; cases e1
    rw [(hv s hs).1] at e2; cases e2
    exact decide_eq_true e3

theorem near6_iff (h : Ready6 imgs ws d t) {a r : Image} (ha : Sized a) (hr : a.rotate90 = .ok r) {j : Nat} {i : Image}
    (hj : imgs[j]? = some i) : cand6 d (val6 a r) j = true ↔ Near6 i a := by
  have hsi := h.sized i (List.mem_of_getElem? hj)
  obtain ⟨ri, hri, _⟩ := hsi.rotate
  have hv := val6_ok ha (ha.rotated hr)
  have h1s : strategy1 ∈ simpleStrats := by decide
  rw [Bool.and_eq_true, List.all_eq_true, Bool.and_eq_true, decide_eq_true_iff, decide_eq_true_iff]
  constructor
  · rintro ⟨hn, hall⟩
    refine ⟨ri, r, hri, hr, fun s hs => ⟨_, _, col_entry h.learnt h.sized hs hj hri, (hv s hs).1, ?_⟩⟩
    split
    · rename_i e; subst e; exact hn
    · rename_i e
      rcases simple_algos s hs with h' | h'
      · exact absurd h' e
      · exact of_decide_eq_true (hall s h')
  · rintro ⟨ri', ra, h1, h2, hall⟩
    rw [hri] at h1; cases h1
    rw [hr] at h2; cases h2
    have key : ∀ s ∈ simpleStrats, if s = (.dvdirection, .img90) then
        (d.col s).getD j 0 / 10 ≤ val6 a r s / 10 + 2 ∧ val6 a r s / 10 ≤ (d.col s).getD j 0 / 10 + 2
        else (d.col s).getD j 0 / 10 = val6 a r s / 10 := by
      intro s hs
      obtain ⟨x, y, e1, e2, e3⟩ := hall s hs
      rw [col_entry h.learnt h.sized hs hj hri] at e1; cases e1
      rw [(hv s hs).1] at e2; cases e2
      exact e3
    refine ⟨?_, ?_⟩
    · have := key strategy1 h1s
      rw [if_pos (show strategy1 = (.dvdirection, .img90) from rfl)] at this
      exact this
    · intro s hs
      have := key s (otherAlgos_simple s hs)
      have hne : s ≠ (.dvdirection, .img90) :=
        (show ∀ s ∈ otherAlgos, s ≠ (Feat.dvdirection, Policy.img90) by decide) s hs
      rw [if_neg hne] at this
      exact decide_eq_true this

theorem exact_near {i a : Image} (h : Exact6 i a) : Near6 i a := by
  obtain ⟨ri, ra, h1, h2, hall⟩ := h
  refine ⟨ri, ra, h1, h2, fun s hs => ?_⟩
  obtain ⟨x, y, e1, e2, e3⟩ := hall s hs
  refine ⟨x, y, e1, e2, ?_⟩
  split <;> omega

theorem twin_iff {bw : List (List Nat)} (h : Taught imgs ws d bw) {g : Nat} (hg : g < imgs.length) (j : Nat) :
    j ∈ bw.getD g [] ↔ Twin6 ws g j := by
  obtain ⟨bw', e, _, hm⟩ := makeByWord_map h.ne
  have := h.byWords
  rw [e, Res.ok.injEq] at this
  rw [← this, hm g j (by rw [h.len]; exact hg)]
  have hg' : g < ws.length := by rw [h.len]; exact hg
  unfold Twin6
  constructor
  · rintro ⟨h1, h2, h3⟩
    refine ⟨h2, ws[g], ws[j], List.getElem?_eq_getElem hg', List.getElem?_eq_getElem h1, ?_⟩
    rw [List.getD_eq_getElem?_getD, List.getD_eq_getElem?_getD, List.getElem?_eq_getElem hg', List.getElem?_eq_getElem h1] at h3
    exact h3
  · rintro ⟨h2, v, u, e1, e2, e3⟩
    refine ⟨(List.getElem?_eq_some_iff.1 e2).1, h2, ?_⟩
    rw [List.getD_eq_getElem?_getD, List.getD_eq_getElem?_getD, e1, e2]
    exact e3

theorem byWords_len {bw : List (List Nat)} (h : Taught imgs ws d bw) : bw.length = imgs.length := by
  obtain ⟨bw', e, hl, _⟩ := makeByWord_map h.ne
  have := h.byWords
  rw [e, Res.ok.injEq] at this
  rw [← this, hl, h.len]

/-- The search through the pictures of a word. -/
theorem keep6 {bw : List (List Nat)} (h : Taught imgs ws d bw) {a r : Image} (ha : Sized a) (hr : a.rotate90 = .ok r) {g : Nat} (hg : g < imgs.length) :
    (Stuck bw (exclusiveStrats.map d.strat) a r g → ∃ (j : Nat) (b : Image), Twin6 ws g j ∧ imgs[j]? = some b ∧ SameZones b a ∧
      Clash b a) ∧
    (¬ Stuck bw (exclusiveStrats.map d.strat) a r g → (wordKeep bw (exclusiveStrats.map d.strat) a r g = true ↔
      (∀ j, ¬ Twin6 ws g j) ∨ ∃ j b, Twin6 ws g j ∧ imgs[j]? = some b ∧ SameZones b a)) := by
  have hlt : ∀ j, j ∈ bw.getD g [] → j < imgs.length := by
    intro j hj
    obtain ⟨_, v, u, _, e, _⟩ := (twin_iff h hg j).1 hj
    have := (List.getElem?_eq_some_iff.1 e).1
    rw [h.len] at this
    exact this
  have run := fun j (hj : j < imgs.length) => exclusive_run h.learnt ha hr (List.getElem?_eq_getElem hj) (h.sized _ (List.getElem_mem hj))
  constructor
  · rintro ⟨pre, j, post, e, _, hb⟩
    have hj : j ∈ bw.getD g [] := by rw [e]; simp
    have := (run j (hlt j hj)).2.1.1 hb
    exact ⟨j, _, (twin_iff h hg j).1 hj, List.getElem?_eq_getElem (hlt j hj), this.1, this.2⟩
  · intro hst
    unfold wordKeep
    rw [Bool.or_eq_true, List.isEmpty_iff, List.any_eq_true]
    constructor
    · rintro (h0 | ⟨j, hj, h1⟩)
      · left
        intro j hj
        have := (twin_iff h hg j).2 hj
        rw [h0] at this
        cases this
      · right
        rw [all_testOf] at h1
        refine ⟨j, _, (twin_iff h hg j).1 hj, List.getElem?_eq_getElem (hlt j hj), ?_⟩
        exact Classical.byContradiction fun hn => h1.1 ((run j (hlt j hj)).1.2 hn)
    · rintro (h0 | ⟨j, b, hj, hb, hz⟩)
      · left
        cases e : bw.getD g [] with
        | nil => rfl
        | cons j l => exact absurd ((twin_iff h hg j).1 (by rw [e]; simp)) (h0 j)
      · right
        have hj' := (twin_iff h hg j).2 hj
        have hex : ∃ j ∈ bw.getD g [], ¬ Refused (exclusiveStrats.map d.strat) a r j := by
          refine ⟨j, hj', ?_⟩
          rw [(run j (hlt j hj')).1]
          rw [List.getElem?_eq_getElem (hlt j hj'), Option.some.injEq] at hb
          rw [hb]
          exact fun hn => hn hz
        obtain ⟨pre, k, post, e, h1, h2⟩ := first_of hex
        refine ⟨k, by rw [e]; simp, (all_testOf _).2 ⟨h2, ?_⟩⟩
        intro hbr
        exact hst ⟨pre, k, post, e, fun x hx => Classical.byContradiction fun hn => h1 x hx hn, hbr⟩

theorem getWord_ok {P : Type} {words : List Words} (hne : [] ∉ words) {p : Nat × P} (hp : p.1 < words.length) :
    ∃ w, getWord6 words p = .ok w ∧ (words.getD p.1 []).head? = some w := by
  have e : words.getD p.1 [] = words[p.1] := by rw [List.getD_eq_getElem?_getD, List.getElem?_eq_getElem hp]; rfl
  unfold getWord6
  rw [rd_of_lt hp, Res.ok_bind, e]
  cases hc : words[p.1] with
  | nil => exact absurd (hc ▸ List.getElem_mem hp) hne
  | cons w l => exact ⟨w, rfl, rfl⟩

theorem head_gather {P : Type} {words : List Words} {p : Nat × P} {r : List (Nat × P)} {w : List Nat}
    (h : (words.getD p.1 []).head? = some w) : ((p :: r).flatMap fun q => words.getD q.1 []).head? = some w := by
  rw [List.flatMap_cons]
  cases e : words.getD p.1 [] with
  | nil => rw [e] at h; cases h
  | cons x l => rw [e] at h; exact h

theorem letter6_run (S : StdSort) (h : Ready6 imgs ws d t) {a r : Image} (ha : Sized a) (hr : a.rotate90 = .ok r) :
    (∃ o, computeLetter6 S t a r = .ok o ∧ Reads6 imgs ws a o) ∨ (computeLetter6 S t a r = .ub ∧ Jam6 imgs ws a) := by
  have hv := val6_ok ha (ha.rotated hr)
  obtain ⟨ps, eps, _, hmem, hcr⟩ := candidates6_ok (img := a) (img90 := r) h.built h.cols h.len (val := val6 a r) (by
    intro s hs
    rw [toolLoad_eq]
    exact hv s hs)
  have hwl : t.words.length = imgs.length := by rw [h.built.words, h.len]
  have hps : ∀ q ∈ ps, q.1 < imgs.length := fun q hq => ((hmem q.1).1 (List.mem_map.2 ⟨q, hq, rfl⟩)).1
  have hnear : ∀ q ∈ ps, ∃ i, imgs[q.1]? = some i ∧ Near6 i a := by
    intro q hq
    have hlt := hps q hq
    exact ⟨_, List.getElem?_eq_getElem hlt, (near6_iff h ha hr (List.getElem?_eq_getElem hlt)).1
      ((hmem q.1).1 (List.mem_map.2 ⟨q, hq, rfl⟩)).2⟩
  have hnear' : ∀ j i, imgs[j]? = some i → Near6 i a → ∃ q ∈ ps, q.1 = j := by
    intro j i hj hn
    have hlt := (List.getElem?_eq_some_iff.1 hj).1
    obtain ⟨q, hq, e⟩ := List.mem_map.1 ((hmem j).2 ⟨hlt, (near6_iff h ha hr hj).2 hn⟩)
    exact ⟨q, hq, e⟩
  have hword : ∀ j v, ws[j]? = some v ↔ j < imgs.length ∧ t.words.getD j [] = v := by
    intro j v
    rw [h.built.words, List.getD_eq_getElem?_getD]
    constructor
    · intro e
      have := (List.getElem?_eq_some_iff.1 e).1
      rw [h.len] at this
      exact ⟨this, by rw [e]; rfl⟩
    · rintro ⟨h1, h2⟩
      have h1' : j < ws.length := by rw [h.len]; exact h1
      rw [List.getElem?_eq_getElem h1'] at h2 ⊢
      exact congrArg some h2
  have hne : [] ∉ t.words := by rw [h.built.words]; exact h.ne
  obtain ⟨tmp, etmp, hsub, hsort, hcov⟩ := sortShow_ok S (words := t.words) (ps := ps)
    (g := fun j => simpleStrats.all (same6 d (val6 a r) j)) (fun q hq => by rw [hwl]; exact hps q hq) hcr
  have hmatch : ∀ k, Match6 imgs a k ↔ k < imgs.length ∧ simpleStrats.all (same6 d (val6 a r) k) = true := by
    intro k
    constructor
    · rintro ⟨i, hk, he⟩
      exact ⟨(List.getElem?_eq_some_iff.1 hk).1, (match_iff h ha hr hk).2 he⟩
    · rintro ⟨hk, he⟩
      exact ⟨_, List.getElem?_eq_getElem hk, (match_iff h ha hr (List.getElem?_eq_getElem hk)).1 he⟩
  have hmps : ∀ k, Match6 imgs a k → ∃ q ∈ ps, q.1 = k := by
    rintro k ⟨i, hk, he⟩
    exact hnear' k i hk (exact_near he)
  unfold computeLetter6
  rw [eps, Res.ok_bind, etmp, Res.ok_bind]
  cases tmp with
  | nil =>
    have hps0 : ∀ q, q ∉ ps := by
      intro q hq
      obtain ⟨q', hq', _⟩ := hcov q hq
      cases hq'
    have hno : ∀ i ∈ imgs, ¬ Near6 i a := by
      intro i hi hn
      obtain ⟨j, hj⟩ := List.getElem?_of_mem hi
      obtain ⟨q, hq, _⟩ := hnear' j i hj hn
      exact hps0 q hq
    left
    refine ⟨_, rfl, ?_, by simp, fun _ => ⟨rfl, rfl⟩, .inr ⟨hno, rfl⟩, fun _ => rfl⟩
    intro w
    constructor
    · intro hw; cases hw
    · rintro ⟨g, v, hc, _⟩
      rcases hc with hc | ⟨_, ⟨i, hj, hn, _⟩, _⟩
      · obtain ⟨q, hq, _⟩ := hmps g hc
        exact absurd hq (hps0 q)
      · exact absurd hn (hno i (List.mem_of_getElem? hj))
  | cons best rest =>
    have hbest : best ∈ ps := hsub best (by simp)
    have hbl : best.1 < t.words.length := by rw [hwl]; exact hps best hbest
    obtain ⟨r1, er1, hr1⟩ := getWord_ok hne hbl
    simp only []
    rw [er1, Res.ok_bind, less_one (hcr best hbest), Bool.not_not]
    have hfirst : ∃ (g : Nat) (i : Image) (v : Words), imgs[g]? = some i ∧ Near6 i a ∧ ws[g]? = some v ∧ v.head? = some r1 := by
      obtain ⟨i, hi, hn⟩ := hnear best hbest
      exact ⟨best.1, i, _, hi, hn, (hword _ _).2 ⟨hps best hbest, rfl⟩, hr1⟩
    cases hb : simpleStrats.all (same6 d (val6 a r) best.1) with
    | true =>
      rw [if_pos rfl]
      have hg := gather6_ok (words := t.words) (stop := fun p => p.less ⟨1, 1⟩)
        (sb := fun j => !simpleStrats.all (same6 d (val6 a r) j)) (best :: rest)
        (fun q hq => by rw [hwl]; exact hps q (hsub q hq)) (fun q hq => less_one (hcr q (hsub q hq)))
        (hsort.imp fun {x y} hxy h1 => by
          cases hy : simpleStrats.all (same6 d (val6 a r) y.1) with
          | true => exact absurd ⟨by simpa using h1, hy⟩ hxy
          | false => rfl)
      simp only [Bool.not_not] at hg
      rw [hg, Res.ok_bind]
      left
      have hhead : ((List.filter (fun q => simpleStrats.all (same6 d (val6 a r) q.1)) (best :: rest)).flatMap
          fun q => t.words.getD q.1 []).head? = some r1 := by
        rw [List.filter_cons, if_pos hb]
        exact head_gather hr1
      refine ⟨_, rfl, ?_, fun _ => ⟨rfl, hhead⟩, ?_, .inl hfirst, fun _ => rfl⟩
      · intro w
        simp only [List.mem_flatMap, List.mem_filter]
        have hm1 : ∃ k, Match6 imgs a k := ⟨best.1, (hmatch _).2 ⟨hps best hbest, hb⟩⟩
        constructor
        · rintro ⟨q, ⟨hq, hq'⟩, hw⟩
          have hql := hps q (hsub q hq)
          exact ⟨q.1, _, .inl ((hmatch _).2 ⟨hql, hq'⟩), (hword _ _).2 ⟨hql, rfl⟩, hw⟩
        · rintro ⟨g, v, hc, hgv, hw⟩
          obtain ⟨k, hk⟩ := hm1
          rcases hc with hc | ⟨hc, _⟩
          · obtain ⟨q, hq, rfl⟩ := hmps g hc
            obtain ⟨q', hq', e1, e2⟩ := hcov q hq
            refine ⟨q', ⟨hq', e2 ((hmatch _).1 hc).2⟩, ?_⟩
            rw [e1, ((hword _ _).1 hgv).2]
            exact hw
          · exact absurd hk (hc k)
      · intro h0
        simp only [] at h0
        rw [h0] at hhead
        cases hhead
    | false =>
      rw [if_neg (by simp)]
      have hfalse : ∀ q ∈ ps, simpleStrats.all (same6 d (val6 a r) q.1) = false := by
        intro q hq
        obtain ⟨q', hq', _, e2⟩ := hcov q hq
        cases hc : simpleStrats.all (same6 d (val6 a r) q.1) with
        | false => rfl
        | true =>
          have h' := e2 hc
          rcases List.mem_cons.1 hq' with rfl | hq'
          · rw [hb] at h'; cases h'
          · exact absurd ⟨hb, h'⟩ (List.rel_of_pairwise_cons hsort hq')
      have hnom : ∀ k, ¬ Match6 imgs a k := by
        intro k hk
        obtain ⟨q, hq, rfl⟩ := hmps k hk
        have := ((hmatch _).1 hk).2
        rw [hfalse q hq] at this
        cases this
      obtain ⟨p1, e1, c1, m1⟩ := reduceComplex6_ok h.learnt h.sized ha hr hps
        (fun q hq => by have := hcr q hq; rw [hfalse q hq] at this; exact this)
      have hp1 : ∀ q ∈ p1, q.1 < imgs.length ∧ ∃ i, imgs[q.1]? = some i ∧ Near6 i a ∧ Bars6 i a := by
        intro q hq
        obtain ⟨hq1, i, hi, hb⟩ := (m1 q.1).1 (List.mem_map.2 ⟨q, hq, rfl⟩)
        obtain ⟨q0, hq0, e0⟩ := List.mem_map.1 hq1
        obtain ⟨i', hi', hn⟩ := hnear q0 hq0
        rw [e0, hi, Option.some.injEq] at hi'
        subst hi'
        exact ⟨(List.getElem?_eq_some_iff.1 hi).1, i, hi, hn, hb⟩
      rw [h.built.datas, e1, Res.ok_bind, reduceExclusive6_eq]
      have hin : ∀ p ∈ p1, p.1 < t.byWords.length := fun p hp => by rw [byWords_len h.taught]; exact (hp1 p hp).1
      by_cases hst : ∃ p ∈ p1, Stuck t.byWords (exclusiveStrats.map d.strat) a r p.1
      · right
        rw [reduceExclusive_stuck t.byWords (exclusiveStrats.map d.strat) (exclusive_loads ha) p1 hin ?_ hst, Res.ub_bind]
        · refine ⟨rfl, hnom, ?_⟩
          obtain ⟨p, hp, hs⟩ := hst
          obtain ⟨hpl, i, hi, hn, hb⟩ := hp1 p hp
          obtain ⟨j, b, x1, x2, x3, x4⟩ := (keep6 h.taught ha hr hpl).1 hs
          exact ⟨p.1, i, j, b, hi, hn, hb, x1, x2, x3, x4⟩
        · intro l hl j hj
          obtain ⟨g, hg⟩ := List.getElem?_of_mem hl
          have hgl : g < imgs.length := by rw [← byWords_len h.taught]; exact (List.getElem?_eq_some_iff.1 hg).1
          have hj' : j ∈ t.byWords.getD g [] := by rw [List.getD_eq_getElem?_getD, hg]; exact hj
          obtain ⟨_, v, u, _, e, _⟩ := (twin_iff h.taught hgl j).1 hj'
          have hjl := (List.getElem?_eq_some_iff.1 e).1
          rw [h.len] at hjl
          exact (exclusive_run h.learnt ha hr (List.getElem?_eq_getElem hjl) (h.sized _ (List.getElem_mem hjl))).2.2
      · left
        rw [reduceExclusive_ok t.byWords (exclusiveStrats.map d.strat) (exclusive_loads ha) p1 hin
          (fun p hp hs => hst ⟨p, hp, hs⟩), Res.ok_bind]
        have hsubp : ∀ q ∈ p1.filter (fun p => wordKeep t.byWords (exclusiveStrats.map d.strat) a r p.1), q ∈ p1 :=
          fun q hq => (List.mem_filter.1 hq).1
        obtain ⟨fin, efin, fsub, _, fcov⟩ := sortShow_ok S (words := t.words)
          (ps := p1.filter fun p => wordKeep t.byWords (exclusiveStrats.map d.strat) a r p.1) (g := fun _ => false)
          (fun q hq => by rw [hwl]; exact (hp1 q (hsubp q hq)).1) (fun q hq => c1 q (hsubp q hq))
        have hkept : ∀ q ∈ p1, wordKeep t.byWords (exclusiveStrats.map d.strat) a r q.1 = true ↔ Kept6 imgs ws a q.1 := by
          intro q hq
          obtain ⟨hql, hib⟩ := hp1 q hq
          rw [(keep6 h.taught ha hr hql).2 fun hs => hst ⟨q, hq, hs⟩]
          unfold Kept6
          exact ⟨fun hk => ⟨hib, hk⟩, fun hk => hk.2⟩
        have hfin : ∀ q ∈ fin, Kept6 imgs ws a q.1 ∧ q ∈ p1 := by
          intro q hq
          have := List.mem_filter.1 (fsub q hq)
          exact ⟨(hkept q this.1).1 this.2, this.1⟩
        have hfin' : ∀ g v, Chosen6 imgs ws a g → ws[g]? = some v → ∃ q ∈ fin, t.words.getD q.1 [] = v := by
          intro g v hc hgv
          rcases hc with hc | ⟨_, hk⟩
          · exact absurd hc (hnom g)
          · obtain ⟨i, hi, hn, hb⟩ := hk.1
            obtain ⟨q0, hq0, e0⟩ := hnear' g i hi hn
            obtain ⟨q1, hq1, eq1⟩ := List.mem_map.1 ((m1 g).2 ⟨List.mem_map.2 ⟨q0, hq0, e0⟩, i, hi, hb⟩)
            have : q1 ∈ p1.filter fun p => wordKeep t.byWords (exclusiveStrats.map d.strat) a r p.1 :=
              List.mem_filter.2 ⟨hq1, (hkept q1 hq1).2 (by rw [eq1]; exact hk)⟩
            obtain ⟨q', hq', e', _⟩ := fcov q1 this
            exact ⟨q', hq', by rw [e', eq1, ((hword _ _).1 hgv).2]⟩
        rw [efin, Res.ok_bind]
        cases fin with
        | nil =>
          refine ⟨_, rfl, ?_, by simp, fun _ => ⟨rfl, rfl⟩, .inl hfirst, fun ⟨k, hk⟩ => absurd hk (hnom k)⟩
          intro w
          constructor
          · intro hw; cases hw
          · rintro ⟨g, v, hc, hgv, _⟩
            obtain ⟨q, hq, _⟩ := hfin' g v hc hgv
            cases hq
        | cons first fin =>
          have hfl : first.1 < t.words.length := by rw [hwl]; exact (hp1 first (hfin first (by simp)).2).1
          obtain ⟨r2, er2, hr2⟩ := getWord_ok hne hfl
          have hg := gather6_ok (words := t.words) (stop := fun p => p.less first.2) (sb := fun _ => false) (first :: fin)
            (fun q hq => by rw [hwl]; exact (hp1 q (hfin q hq).2).1)
            (fun q hq => by
              rw [less_crisp (c1 q (hfin q hq).2) (c1 first (hfin first (by simp)).2)]
              rfl)
            (List.pairwise_of_forall (by simp))
          simp only []
          rw [hg, Res.ok_bind, er2, Res.ok_bind]
          have hall : (first :: fin).filter (fun q => !(fun _ => false) q.1) = first :: fin := List.filter_eq_self.2 (by simp)
          refine ⟨_, rfl, ?_, ?_, ?_, .inl hfirst, fun ⟨k, hk⟩ => absurd hk (hnom k)⟩
          · intro w
            simp only [List.mem_flatMap, hall]
            constructor
            · rintro ⟨q, hq, hw⟩
              obtain ⟨hk, hq1⟩ := hfin q hq
              exact ⟨q.1, _, .inr ⟨hnom, hk⟩, (hword _ _).2 ⟨(hp1 q hq1).1, rfl⟩, hw⟩
            · rintro ⟨g, v, hc, hgv, hw⟩
              obtain ⟨q, hq, e⟩ := hfin' g v hc hgv
              exact ⟨q, hq, by rw [e]; exact hw⟩
          · intro _
            refine ⟨rfl, ?_⟩
            simp only [hall]
            exact head_gather hr2
          · intro h0
            simp only [hall] at h0
            have := head_gather (r := fin) hr2
            rw [h0] at this
            cases this

end

end Ppocr

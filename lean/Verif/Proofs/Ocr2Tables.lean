import Verif.Proofs.Ocr2

/-! # Helper lemmas: tables computed from the glyphs -/

namespace Ppocr
open Spec

/-! ### DataIndexesByWords -/

/-- The list stored under a key. -/
def lookupL : List (Nat × List Nat) → Nat → List Nat
  | [], _ => []
  | (k, l) :: m, w => if w = k then l else lookupL m w

/-- Keys strictly increasing. -/
def KeysLt (m : List (Nat × List Nat)) : Prop := m.Pairwise fun a b => a.1 < b.1

theorem mapAdd_keys (w n : Nat) (m : List (Nat × List Nat)) (h : KeysLt m) :
    KeysLt (mapAdd w n m) ∧ ∀ p ∈ mapAdd w n m, p.1 = w ∨ ∃ q ∈ m, q.1 = p.1 := by
  induction m with
  | nil => exact ⟨by simp [mapAdd, KeysLt], by simp [mapAdd]⟩
  | cons a m ih =>
    obtain ⟨k, l⟩ := a
    have h' := List.pairwise_cons.1 h
    unfold mapAdd
    split
    · refine ⟨List.pairwise_cons.2 ⟨?_, h⟩, ?_⟩
      · intro p hp
        rcases List.mem_cons.1 hp with e | hp
        · rw [e]; assumption
        · have := h'.1 p hp
          simp only at this ⊢
          omega
      · intro p hp
        rcases List.mem_cons.1 hp with e | hp
        · left; rw [e]
        · exact Or.inr ⟨p, hp, rfl⟩
    · split
      · refine ⟨List.pairwise_cons.2 ⟨h'.1, h'.2⟩, ?_⟩
        intro p hp
        rcases List.mem_cons.1 hp with e | hp
        · left; rw [e]; simp only; omega
        · exact Or.inr ⟨p, List.mem_cons_of_mem _ hp, rfl⟩
      · obtain ⟨i1, i2⟩ := ih h'.2
        refine ⟨List.pairwise_cons.2 ⟨?_, i1⟩, ?_⟩
        · intro p hp
          rcases i2 p hp with e | ⟨q, hq, e⟩
          · simp only; omega
          · rw [← e]; exact h'.1 q hq
        · intro p hp
          rcases List.mem_cons.1 hp with e | hp
          · exact Or.inr ⟨(k, l), List.mem_cons_self, by rw [e]⟩
          · rcases i2 p hp with e | ⟨q, hq, e⟩
            · exact Or.inl e
            · exact Or.inr ⟨q, List.mem_cons_of_mem _ hq, e⟩

theorem lookupL_lt {w : Nat} {m : List (Nat × List Nat)} (h : ∀ p ∈ m, w < p.1) : lookupL m w = [] := by
  induction m with
  | nil => rfl
  | cons a m ih =>
    obtain ⟨k, l⟩ := a
    have := h (k, l) List.mem_cons_self
    unfold lookupL
    simp only at this
    rw [if_neg (by omega)]
    exact ih fun p hp => h p (List.mem_cons_of_mem _ hp)

theorem lookupL_mapAdd (w n : Nat) (m : List (Nat × List Nat)) (h : KeysLt m) (x : Nat) :
    lookupL (mapAdd w n m) x = if x = w then lookupL m w ++ [n] else lookupL m x := by
  induction m with
  | nil =>
    simp only [mapAdd, lookupL]
    split <;> rfl
  | cons a m ih =>
    obtain ⟨k, l⟩ := a
    have h' := List.pairwise_cons.1 h
    unfold mapAdd
    split
    · rename_i hk
      have e : lookupL ((k, l) :: m) w = [] := by
        apply lookupL_lt
        intro p hp
        rcases List.mem_cons.1 hp with e | hp
        · rw [e]; exact hk
        · have := h'.1 p hp
          simp only at this
          omega
      rw [e]
      by_cases hx : x = w
      · rw [if_pos hx]
        unfold lookupL
        rw [if_pos hx]
        rfl
      · rw [if_neg hx]
        conv => { lhs; unfold lookupL }
        rw [if_neg hx]
    · split
      · rename_i hk
        by_cases hx : x = w
        · rw [if_pos hx]
          unfold lookupL
          rw [if_pos (by omega), if_pos hk]
        · rw [if_neg hx]
          unfold lookupL
          rw [if_neg (by omega), if_neg (by omega)]
      · rename_i h1 h2
        unfold lookupL
        by_cases hx : x = k
        · rw [if_pos hx, if_neg (by omega), if_pos hx]
        · rw [if_neg hx, ih h'.2, if_neg h2, if_neg hx]

theorem lookupL_mem {m : List (Nat × List Nat)} (h : KeysLt m) {k : Nat} {l : List Nat}
    (hp : (k, l) ∈ m) : lookupL m k = l := by
  induction m with
  | nil => exact absurd hp (by simp)
  | cons a m ih =>
    obtain ⟨k', l'⟩ := a
    have h' := List.pairwise_cons.1 h
    unfold lookupL
    rcases List.mem_cons.1 hp with e | hp
    · cases e
      rw [if_pos rfl]
    · have := h'.1 _ hp
      simp only at this
      rw [if_neg (by omega)]
      exact ih h'.2 hp

theorem mem_of_lookupL {m : List (Nat × List Nat)} {k : Nat} (h : lookupL m k ≠ []) :
    (k, lookupL m k) ∈ m := by
  induction m with
  | nil => exact absurd rfl h
  | cons a m ih =>
    obtain ⟨k', l'⟩ := a
    unfold lookupL at h ⊢
    by_cases e : k = k'
    · rw [if_pos e]
      subst e
      exact List.mem_cons_self
    · rw [if_neg e] at h ⊢
      exact List.mem_cons_of_mem _ (ih h)

theorem collectWords_ok (fw : Nat → Nat) : ∀ (gs : List (List View)) (n : Nat) (m : List (Nat × List Nat)),
    (∀ j vs, gs[j]? = some vs → ∃ v, vs.head? = some v ∧ v.word = fw (n + j)) → KeysLt m →
    (∀ k, lookupL m k = (List.range n).filter fun i => decide (fw i = k)) →
    ∃ m', collectWords gs n m = .ok m' ∧ KeysLt m' ∧
      ∀ k, lookupL m' k = (List.range (n + gs.length)).filter fun i => decide (fw i = k) := by
  intro gs
  induction gs with
  | nil =>
    intro n m _ hk hl
    exact ⟨m, rfl, hk, by simpa using hl⟩
  | cons vs gs ih =>
    intro n m hw hk hl
    obtain ⟨v, hv, hvw⟩ := hw 0 vs rfl
    cases vs with
    | nil => exact absurd hv (by simp)
    | cons v' vs =>
      simp only [List.head?_cons, Option.some.injEq] at hv
      subst hv
      obtain ⟨m', h1, h2, h3⟩ := ih (n + 1) (mapAdd v'.word n m)
        (by
          intro j us hj
          have := hw (j + 1) us (by simpa using hj)
          rwa [show n + (j + 1) = n + 1 + j from by omega] at this)
        (mapAdd_keys _ _ _ hk).1
        (by
          intro k
          rw [lookupL_mapAdd _ _ _ hk, List.range_succ, List.filter_append, hl, hl]
          rw [Nat.add_zero] at hvw
          by_cases e : k = v'.word
          · rw [if_pos e, ← e]
            congr 1
            rw [List.filter_cons_of_pos (by simp; omega)]
            rfl
          · rw [if_neg e, List.filter_cons_of_neg (by simp; omega)]
            simp)
      refine ⟨m', ?_, h2, ?_⟩
      · unfold collectWords
        exact h1
      · intro k
        rw [h3 k, List.length_cons, show n + 1 + gs.length = n + (gs.length + 1) from by omega]

theorem swapLoop_ok : ∀ (rest pre : List Nat) (tmp : Nat) (t : List (List Nat)),
    (pre ++ tmp :: rest).Nodup → (∀ j ∈ rest, j < t.length) →
    (swapLoop pre rest tmp t).length = t.length ∧
    (∀ j, j ∉ rest → (swapLoop pre rest tmp t)[j]? = t[j]?) ∧
    ∀ j ∈ rest, ∃ l, (swapLoop pre rest tmp t)[j]? = some l ∧ (j :: l).Perm (pre ++ tmp :: rest) ∧
      l = pre ++ tmp :: rest.filter fun k => decide (k ≠ j) := by
  intro rest
  induction rest with
  | nil =>
    intro pre tmp t _ _
    exact ⟨rfl, fun _ _ => rfl, by simp⟩
  | cons i rest ih =>
    intro pre tmp t hn hlt
    unfold swapLoop
    have hperm : ((pre ++ [tmp]) ++ i :: rest).Perm (pre ++ tmp :: i :: rest) := by
      rw [List.append_assoc]
      exact List.Perm.refl _
    obtain ⟨h1, h2, h3⟩ := ih (pre ++ [tmp]) i (t.set i (pre ++ tmp :: rest))
      (hperm.nodup_iff.2 hn)
      (by
        intro j hj
        rw [List.length_set]
        exact hlt j (List.mem_cons_of_mem _ hj))
    have hi : i ∉ rest := by
      have := (List.nodup_append.1 hn).2.1
      have := (List.nodup_cons.1 this).2
      exact (List.nodup_cons.1 this).1
    refine ⟨by rw [h1, List.length_set], ?_, ?_⟩
    · intro j hj
      rw [h2 j fun h => hj (List.mem_cons_of_mem _ h), List.getElem?_set_ne]
      intro e
      exact hj (e ▸ List.mem_cons_self)
    · intro j hj
      rcases List.mem_cons.1 hj with e | hj
      · subst e
        refine ⟨pre ++ tmp :: rest, ?_, ?_, ?_⟩
        · rw [h2 j hi, List.getElem?_set_self (hlt j List.mem_cons_self)]
        · have h4 : (pre ++ [tmp] ++ j :: rest).Perm (j :: (pre ++ [tmp] ++ rest)) :=
            List.perm_middle
          rw [List.append_assoc, List.append_assoc] at h4
          exact h4.symm
        · rw [List.filter_cons_of_neg (by simp), List.filter_eq_self.2]
          intro k hk
          exact decide_eq_true fun e => hi (e ▸ hk)
      · obtain ⟨l, h4, h5, h6⟩ := h3 j hj
        refine ⟨l, h4, h5.trans hperm, ?_⟩
        rw [h6, List.filter_cons_of_pos (by simp; intro e; exact hi (e ▸ hj)), List.append_assoc]
        rfl

theorem fillGroup_ok (l : List Nat) (t : List (List Nat)) (hn : l.Nodup) (hlt : ∀ j ∈ l, j < t.length) :
    (fillGroup l t).length = t.length ∧ (∀ j, j ∉ l → (fillGroup l t)[j]? = t[j]?) ∧
    (l.length ≤ 1 → fillGroup l t = t) ∧
    (1 < l.length → ∀ j ∈ l, ∃ r, (fillGroup l t)[j]? = some r ∧ (j :: r).Perm l ∧ r = restOf l j) := by
  unfold fillGroup
  cases hr : l.reverse with
  | nil =>
    rw [List.reverse_eq_nil_iff] at hr
    subst hr
    exact ⟨rfl, fun _ _ => rfl, fun _ => rfl, by simp⟩
  | cons tmp rs =>
    have hl : l = rs.reverse ++ [tmp] := by
      have := congrArg List.reverse hr
      rw [List.reverse_reverse, List.reverse_cons] at this
      exact this
    cases rs with
    | nil =>
      refine ⟨rfl, fun _ _ => rfl, fun _ => rfl, ?_⟩
      intro h
      rw [hl] at h
      simp at h
    | cons b rs =>
      simp only []
      have hd : l.dropLast = (b :: rs).reverse := by rw [hl, List.dropLast_concat]
      rw [hd]
      generalize hrest : (b :: rs).reverse = rest at *
      have hp : (tmp :: rest).Perm l := by
        rw [hl]
        exact (List.perm_append_comm (l₁ := [tmp]) (l₂ := rest))
      obtain ⟨h1, h2, h3⟩ := swapLoop_ok rest [] tmp (t.set tmp rest)
        (hp.nodup_iff.2 hn)
        (by
          intro j hj
          rw [List.length_set]
          exact hlt j (hp.mem_iff.1 (List.mem_cons_of_mem _ hj)))
      have hlast : l.getLast? = some tmp := by rw [hl]; simp
      have htm : tmp ∉ rest := (List.nodup_cons.1 (hp.nodup_iff.2 hn)).1
      refine ⟨by rw [h1, List.length_set], ?_, ?_, ?_⟩
      · intro j hj
        have hj' : j ∉ tmp :: rest := fun h => hj (hp.mem_iff.1 h)
        rw [h2 j fun h => hj' (List.mem_cons_of_mem _ h), List.getElem?_set_ne]
        intro e
        exact hj' (e ▸ List.mem_cons_self)
      · intro h
        have := hp.length_eq
        rw [List.length_cons, ← hrest] at this
        simp at this
        omega
      · intro _ j hj
        rcases List.mem_cons.1 (hp.mem_iff.2 hj) with e | hj
        · subst e
          refine ⟨rest, ?_, hp, by unfold restOf; rw [hlast]; simp only [if_true]; exact hd.symm⟩
          rw [h2 j htm, List.getElem?_set_self (hlt j (hp.mem_iff.1 List.mem_cons_self))]
        · obtain ⟨r, h4, h5, h6⟩ := h3 j hj
          refine ⟨r, h4, h5.trans hp, ?_⟩
          unfold restOf
          rw [hlast]
          simp only []
          rw [if_neg (fun e : j = tmp => htm (e ▸ hj)), hd]
          exact h6

theorem foldl_groups (n : Nat) : ∀ (m : List (Nat × List Nat)) (t : List (List Nat)), t.length = n →
    (m.Pairwise fun a b => ∀ j ∈ a.2, j ∉ b.2) → (∀ p ∈ m, p.2.Nodup ∧ ∀ j ∈ p.2, j < n) →
    (∀ p ∈ m, ∀ j ∈ p.2, t[j]? = some []) →
    (m.foldl (fun t p => fillGroup p.2 t) t).length = n ∧
    (∀ j, (∀ p ∈ m, j ∉ p.2) → (m.foldl (fun t p => fillGroup p.2 t) t)[j]? = t[j]?) ∧
    ∀ p ∈ m, ∀ j ∈ p.2, ∃ r, (m.foldl (fun t p => fillGroup p.2 t) t)[j]? = some r ∧
      (j :: r).Perm p.2 ∧ r = restOf p.2 j := by
  intro m
  induction m with
  | nil => intro t h _ _ _; exact ⟨h, fun _ _ => rfl, by simp⟩
  | cons a m ih =>
    intro t hlen hd hm ht
    rw [List.pairwise_cons] at hd
    have ha := hm a List.mem_cons_self
    obtain ⟨h1, h2, h3, h4⟩ := fillGroup_ok a.2 t ha.1 (by rw [hlen]; exact ha.2)
    rw [List.foldl_cons]
    obtain ⟨g1, g2, g3⟩ := ih (fillGroup a.2 t) (h1.trans hlen) hd.2
      (fun p hp => hm p (List.mem_cons_of_mem _ hp))
      (by
        intro p hp j hj
        rw [h2 j fun h => hd.1 p hp j h hj]
        exact ht p (List.mem_cons_of_mem _ hp) j hj)
    refine ⟨g1, ?_, ?_⟩
    · intro j hj
      rw [g2 j fun p hp => hj p (List.mem_cons_of_mem _ hp), h2 j (hj a List.mem_cons_self)]
    · intro p hp j hj
      rcases List.mem_cons.1 hp with e | hp
      · subst e
        rw [g2 j fun q hq h => hd.1 q hq j hj h]
        by_cases hl : 1 < p.2.length
        · exact h4 hl j hj
        · rw [h3 (by omega), ht p List.mem_cons_self j hj]
          refine ⟨[], rfl, ?_⟩
          match hp2 : p.2, hj, hl with
          | [x], hj, _ =>
            rw [List.mem_singleton.1 hj]
            exact ⟨.refl _, by unfold restOf; simp⟩
          | [], hj, _ => exact absurd hj (by simp)
          | _ :: _ :: _, _, hl => exact absurd hl (by simp)
      · exact g3 p hp j hj

theorem dataIndexesByWords_ok (glyphs : List (List View)) (fw : Nat → Nat)
    (hw : ∀ j vs, glyphs[j]? = some vs → ∃ v, vs.head? = some v ∧ v.word = fw j) :
    ∃ t, dataIndexesByWords glyphs = .ok t ∧ t.length = glyphs.length ∧
      ∀ g, g < glyphs.length → ∃ r, t[g]? = some r ∧
        (g :: r).Perm ((List.range glyphs.length).filter fun i => decide (fw i = fw g)) ∧
        r = restOf ((List.range glyphs.length).filter fun i => decide (fw i = fw g)) g := by
  obtain ⟨m, h1, h2, h3⟩ := collectWords_ok fw glyphs 0 []
    (by intro j vs hj; rw [Nat.zero_add]; exact hw j vs hj) List.Pairwise.nil (by intro k; rfl)
  simp only [Nat.zero_add] at h3
  have hm : ∀ p ∈ m, p.2 = (List.range glyphs.length).filter fun i => decide (fw i = p.1) := by
    intro p hp
    rw [← h3, lookupL_mem h2 hp]
  have hn : ∀ k, ((List.range glyphs.length).filter fun i => decide (fw i = k)).Nodup := fun k =>
    List.nodup_range.sublist List.filter_sublist
  obtain ⟨g1, g2, g3⟩ := foldl_groups glyphs.length m (List.replicate glyphs.length [])
    (by simp)
    (by
      refine h2.imp_of_mem ?_
      intro a b ha hb hab j hja hjb
      rw [hm a ha] at hja
      rw [hm b hb] at hjb
      have e1 := of_decide_eq_true (List.mem_filter.1 hja).2
      have e2 := of_decide_eq_true (List.mem_filter.1 hjb).2
      omega)
    (by
      intro p hp
      rw [hm p hp]
      refine ⟨hn _, ?_⟩
      intro j hj
      exact List.mem_range.1 (List.mem_filter.1 hj).1)
    (by
      intro p hp j hj
      rw [hm p hp] at hj
      have := List.mem_range.1 (List.mem_filter.1 hj).1
      rw [List.getElem?_replicate, if_pos this])
  refine ⟨_, ?_, g1, ?_⟩
  · unfold dataIndexesByWords
    rw [h1, Res.ok_bind]
    rfl
  · intro g hg
    have hmem : g ∈ lookupL m (fw g) := by
      rw [h3]
      exact List.mem_filter.2 ⟨List.mem_range.2 hg, by simp⟩
    have := mem_of_lookupL (m := m) (k := fw g) (by
      intro h
      rw [h] at hmem
      exact absurd hmem (by simp))
    obtain ⟨r, h4, h5⟩ := g3 _ this g hmem
    refine ⟨r, h4, ?_⟩
    rw [← h3]
    exact h5

theorem collectWords_empty (gs : List (List View)) (n : Nat) (m : List (Nat × List Nat))
    (h : [] ∈ gs) : collectWords gs n m = .ub := by
  induction gs generalizing n m with
  | nil => exact absurd h (by simp)
  | cons vs gs ih =>
    unfold collectWords
    cases vs with
    | nil => rfl
    | cons v vs =>
      simp only []
      apply ih
      rcases List.mem_cons.1 h with e | h
      · exact absurd e (by simp)
      · exact h

/-! ### View ids -/

/-- The words of a glyph. -/
abbrev wordsOf (vs : List View) : List Nat := vs.map View.word

theorem ltWords_tri (a b : List View) (h : a.length = b.length) :
    (ltWords a b = false ∧ ltWords b a = false ↔ wordsOf a = wordsOf b) ∧
    ¬ (ltWords a b = true ∧ ltWords b a = true) := by
  induction a generalizing b with
  | nil =>
    cases b with
    | nil => simp [ltWords]
    | cons b bs => exact absurd h (by simp)
  | cons x a ih =>
    cases b with
    | nil => exact absurd h (by simp)
    | cons y b =>
      have := ih b (by simpa using h)
      unfold ltWords
      by_cases e : x.word = y.word
      · rw [if_pos e, if_pos e.symm]
        simp only [wordsOf, List.map_cons, List.cons.injEq, e, true_and] at this ⊢
        exact this
      · rw [if_neg e, if_neg (fun h => e h.symm)]
        simp only [wordsOf, List.map_cons, List.cons.injEq, e, false_and, iff_false,
          decide_eq_false_iff_not, decide_eq_true_eq]
        omega

theorem ltWords_trans (a b c : List View) (h : a.length = b.length) (h' : b.length = c.length)
    (h1 : ltWords a b = true) (h2 : ltWords b c = true) : ltWords a c = true := by
  induction a generalizing b c with
  | nil => cases b <;> simp [ltWords] at h1
  | cons x a ih =>
    cases b with
    | nil => exact absurd h (by simp)
    | cons y b =>
      cases c with
      | nil => exact absurd h' (by simp)
      | cons z c =>
        have i := ih b c (by simpa using h) (by simpa using h')
        unfold ltWords at h1 h2 ⊢
        by_cases e1 : x.word = y.word <;> by_cases e2 : y.word = z.word
        · rw [if_pos e1] at h1
          rw [if_pos e2] at h2
          rw [if_pos (e1.trans e2)]
          exact i h1 h2
        · rw [if_neg e2, decide_eq_true_eq] at h2
          rw [if_neg (by omega), decide_eq_true_eq]
          omega
        · rw [if_neg e1, decide_eq_true_eq] at h1
          rw [if_neg (by omega), decide_eq_true_eq]
          omega
        · rw [if_neg e1, decide_eq_true_eq] at h1
          rw [if_neg e2, decide_eq_true_eq] at h2
          rw [if_neg (by omega), decide_eq_true_eq]
          omega

theorem ltViews_false_iff (a b : List View) :
    ltViews a b = false ∧ ltViews b a = false ↔ wordsOf a = wordsOf b := by
  unfold ltViews
  by_cases h1 : a.length < b.length
  · rw [if_pos h1]
    simp only [Bool.true_eq_false, false_and, false_iff]
    intro e
    have := congrArg List.length e
    simp only [List.length_map] at this
    omega
  · by_cases h2 : b.length < a.length
    · rw [if_neg h1, if_pos h2, if_pos h2]
      simp only [Bool.true_eq_false, and_false, false_iff]
      intro e
      have := congrArg List.length e
      simp only [List.length_map] at this
      omega
    · rw [if_neg h1, if_neg h2, if_neg h2, if_neg h1]
      exact (ltWords_tri a b (by omega)).1

theorem ltViews_trans (a b c : List View) (h1 : ltViews a b = true) (h2 : ltViews b c = true) :
    ltViews a c = true := by
  unfold ltViews at *
  by_cases hab : a.length < b.length
  · by_cases hbc : b.length < c.length
    · rw [if_pos (by omega)]
    · by_cases hcb : b.length > c.length
      · rw [if_neg hbc, if_pos hcb] at h2
        exact absurd h2 (by simp)
      · rw [if_pos (by omega)]
  · by_cases hba : a.length > b.length
    · rw [if_neg hab, if_pos hba] at h1
      exact absurd h1 (by simp)
    · rw [if_neg hab, if_neg hba] at h1
      by_cases hbc : b.length < c.length
      · rw [if_pos (by omega)]
      · by_cases hcb : b.length > c.length
        · rw [if_neg hbc, if_pos hcb] at h2
          exact absurd h2 (by simp)
        · rw [if_neg hbc, if_neg hcb] at h2
          rw [if_neg (by omega), if_neg (by omega)]
          exact ltWords_trans a b c (by omega) (by omega) h1 h2

theorem ltWords_congr (a a' b b' : List View) (h : wordsOf a = wordsOf a') (h' : wordsOf b = wordsOf b') :
    ltWords a b = ltWords a' b' := by
  induction a generalizing a' b b' with
  | nil =>
    cases a' with
    | nil => simp [ltWords]
    | cons _ _ => exact absurd h (by simp)
  | cons x a ih =>
    cases a' with
    | nil => exact absurd h (by simp)
    | cons x' a' =>
      simp only [wordsOf, List.map_cons, List.cons.injEq] at h
      cases b with
      | nil =>
        cases b' with
        | nil => simp [ltWords]
        | cons _ _ => exact absurd h' (by simp)
      | cons y b =>
        cases b' with
        | nil => exact absurd h' (by simp)
        | cons y' b' =>
          simp only [wordsOf, List.map_cons, List.cons.injEq] at h'
          unfold ltWords
          rw [h.1, h'.1, ih a' b b' h.2 h'.2]

theorem ltViews_congr (a a' b b' : List View) (h : wordsOf a = wordsOf a') (h' : wordsOf b = wordsOf b') :
    ltViews a b = ltViews a' b' := by
  have l1 := congrArg List.length h
  have l2 := congrArg List.length h'
  simp only [List.length_map] at l1 l2
  unfold ltViews
  rw [l1, l2, ltWords_congr a a' b b' h h']

theorem ltViews_strictWeak : StrictWeak ltViews := by
  refine ⟨?_, ltViews_trans, ?_⟩
  · intro a
    exact ((ltViews_false_iff a a).2 rfl).1
  · intro a b c h1 h2 h3 h4
    exact (ltViews_false_iff a c).2 (((ltViews_false_iff a b).1 ⟨h1, h2⟩).trans
      ((ltViews_false_iff b c).1 ⟨h3, h4⟩))

theorem strictWeak_comap {α β : Type} {lt : β → β → Bool} (h : StrictWeak lt) (f : α → β) :
    StrictWeak fun a b => lt (f a) (f b) :=
  ⟨fun _ => h.irrefl _, fun _ _ _ => h.trans _ _ _, fun _ _ _ => h.incomp _ _ _⟩

/-- The `k`-th entry of `reassign` has the words of the `k`-th reference; neighbours with the same words
are equal. -/
theorem reassign_ok (glyphs : List (List View)) : ∀ (rs : List Nat) (prev : Nat),
    (reassign glyphs prev rs).length = rs.length ∧
    (∀ (k r : Nat), rs[k]? = some r → ∃ r', (reassign glyphs prev rs)[k]? = some r' ∧
      wordsOf (glyphs.getD r' []) = wordsOf (glyphs.getD r [])) ∧
    (∀ (k r' r'' : Nat), (prev :: reassign glyphs prev rs)[k]? = some r' →
      (reassign glyphs prev rs)[k]? = some r'' →
      wordsOf (glyphs.getD r' []) = wordsOf (glyphs.getD r'' []) → r' = r'') := by
  intro rs
  induction rs with
  | nil => intro prev; exact ⟨rfl, by simp, by simp [reassign]⟩
  | cons r rs ih =>
    intro prev
    unfold reassign
    simp only []
    generalize hr : (if eqWords (glyphs.getD r []) (glyphs.getD prev []) = true then prev else r) = q
    obtain ⟨h1, h2, h3⟩ := ih q
    refine ⟨by simp [h1], ?_, ?_⟩
    · intro k x hk
      cases k with
      | zero =>
        simp only [List.getElem?_cons_zero, Option.some.injEq] at hk
        subst hk
        refine ⟨q, rfl, ?_⟩
        rw [← hr]
        split
        · rename_i h
          exact (of_decide_eq_true h).symm
        · rfl
      | succ k => exact h2 k x (by simpa using hk)
    · intro k r' r'' e1 e2 e3
      cases k with
      | zero =>
        simp only [List.getElem?_cons_zero, Option.some.injEq] at e1 e2
        subst e1 e2
        rw [← hr] at e3 ⊢
        split
        · rfl
        · rename_i h
          rw [if_neg h] at e3
          exact absurd (decide_eq_true e3.symm) h
      | succ k =>
        exact h3 k r' r'' (by simpa using e1) (by simpa using e2) e3

/-- Ids follow the *sorted* order: the id at position `k` stands for the words of the `k`-th glyph in the
order of `LtViews`. -/
theorem viewsIndexes_sorted (S : StdSort) (glyphs : List (List View)) :
    ∃ σ : List Nat, σ.Perm (List.range glyphs.length) ∧
      (σ.Pairwise fun i j => ltViews (glyphs.getD j []) (glyphs.getD i []) = false) ∧
      (viewsIndexes S glyphs).length = glyphs.length ∧
      (∀ (k r : Nat), σ[k]? = some r → ∃ r', (viewsIndexes S glyphs)[k]? = some r' ∧
        wordsOf (glyphs.getD r' []) = wordsOf (glyphs.getD r [])) ∧
      ∀ (k r' r'' : Nat), (viewsIndexes S glyphs)[k]? = some r' → (viewsIndexes S glyphs)[k + 1]? = some r'' →
        wordsOf (glyphs.getD r' []) = wordsOf (glyphs.getD r'' []) → r' = r'' := by
  have hw := strictWeak_comap ltViews_strictWeak (fun i : Nat => glyphs.getD i [])
  have hp := S.perm _ (List.range glyphs.length) hw
  have hs := S.sorted _ (List.range glyphs.length) hw
  refine ⟨_, hp, hs, ?_⟩
  have hl := hp.length_eq
  rw [List.length_range] at hl
  unfold viewsIndexes
  revert hl
  generalize S.sort (fun i j => ltViews (glyphs.getD i []) (glyphs.getD j [])) (List.range glyphs.length) = σ
  intro hl
  cases σ with
  | nil => exact ⟨hl, by simp, by simp⟩
  | cons r rs =>
    obtain ⟨h1, h2, h3⟩ := reassign_ok glyphs rs r
    simp only [List.length_cons] at hl ⊢
    refine ⟨by omega, ?_, ?_⟩
    · intro k x hk
      cases k with
      | zero =>
        simp only [List.getElem?_cons_zero, Option.some.injEq] at hk
        subst hk
        exact ⟨r, rfl, rfl⟩
      | succ k => exact h2 k x (by simpa using hk)
    · intro k r' r'' e1 e2 e3
      exact h3 k r' r'' e1 (by simpa using e2) e3

theorem wordsOf_sorted (glyphs : List (List View))
    (hs : glyphs.Pairwise fun a b => ltViews b a = false) (σ : List Nat)
    (hp : σ.Perm (List.range glyphs.length))
    (hσ : σ.Pairwise fun i j => ltViews (glyphs.getD j []) (glyphs.getD i []) = false) (k : Nat) (r : Nat)
    (hk : σ[k]? = some r) : wordsOf (glyphs.getD r []) = wordsOf (glyphs.getD k []) := by
  let le : List Nat → List Nat → Prop := fun a b =>
    ltViews (b.map fun w => ⟨w, 0⟩) (a.map fun w => ⟨w, 0⟩) = false
  have hle : ∀ a b : List View, le (wordsOf a) (wordsOf b) ↔ ltViews b a = false := by
    intro a b
    show ltViews _ _ = false ↔ _
    rw [ltViews_congr _ b _ a]
    · simp [wordsOf, Function.comp_def]
    · simp [wordsOf, Function.comp_def]
  have e : σ.map (fun i => wordsOf (glyphs.getD i [])) = glyphs.map wordsOf := by
    have e2 : glyphs.map wordsOf = (List.range glyphs.length).map fun i => wordsOf (glyphs.getD i []) := by
      apply List.ext_getElem?
      intro i
      simp only [List.getElem?_map]
      by_cases hi : i < glyphs.length
      · rw [List.getElem?_range hi, List.getElem?_eq_getElem hi]
        simp [List.getD_eq_getElem?_getD, List.getElem?_eq_getElem hi]
      · rw [List.getElem?_eq_none (by omega), List.getElem?_eq_none (by simp; omega)]
        rfl
    refine List.Perm.eq_of_pairwise (le := le) ?_ ?_ ?_ ?_
    · intro a b ha hb h1 h2
      obtain ⟨x, _, rfl⟩ := List.mem_map.1 ha
      obtain ⟨y, _, rfl⟩ := List.mem_map.1 hb
      rw [hle] at h1 h2
      exact (ltViews_false_iff _ _).1 ⟨h2, h1⟩
    · rw [List.pairwise_map]
      exact hσ.imp fun h => (hle _ _).2 h
    · rw [List.pairwise_map]
      exact hs.imp fun h => (hle _ _).2 h
    · rw [e2]
      exact hp.map _
  have := congrArg (fun l : List (List Nat) => l[k]?) e
  simp only [List.getElem?_map, hk, Option.map_some] at this
  cases hg : glyphs[k]? with
  | none => rw [hg] at this; exact absurd this (by simp)
  | some v =>
    rw [hg] at this
    simp only [Option.map_some, Option.some.injEq] at this
    rw [this, List.getD_eq_getElem?_getD, hg]
    rfl

theorem viewsIndexes_of_sorted (S : StdSort) (glyphs : List (List View))
    (hs : glyphs.Pairwise fun a b => ltViews b a = false) (i j : Nat) (hi : i < glyphs.length)
    (hj : j < glyphs.length) :
    (viewsIndexes S glyphs)[i]? = (viewsIndexes S glyphs)[j]? ↔
      wordsOf (glyphs.getD i []) = wordsOf (glyphs.getD j []) := by
  obtain ⟨σ, hp, hσ, hl, h1, h2⟩ := viewsIndexes_sorted S glyphs
  have hσl : σ.length = glyphs.length := by rw [hp.length_eq, List.length_range]
  have key : ∀ k, k < glyphs.length → ∃ r', (viewsIndexes S glyphs)[k]? = some r' ∧
      wordsOf (glyphs.getD r' []) = wordsOf (glyphs.getD k []) := by
    intro k hk
    have e : σ[k]? = some (σ[k]'(by omega)) := List.getElem?_eq_getElem _
    obtain ⟨r', a, b⟩ := h1 k _ e
    exact ⟨r', a, b.trans (wordsOf_sorted glyphs hs σ hp hσ k _ e)⟩
  have step : ∀ d i, i + d < glyphs.length →
      wordsOf (glyphs.getD i []) = wordsOf (glyphs.getD (i + d) []) →
      (viewsIndexes S glyphs)[i]? = (viewsIndexes S glyphs)[i + d]? := by
    intro d
    induction d with
    | zero => intro i _ _; rfl
    | succ d ih =>
      intro i hd e
      have g : ∀ a b, a < b → b < glyphs.length → ltViews (glyphs.getD b []) (glyphs.getD a []) = false := by
        intro a b hab hb
        have := List.pairwise_iff_getElem.1 hs a b (by omega) hb hab
        rw [List.getD_eq_getElem?_getD, List.getD_eq_getElem?_getD, List.getElem?_eq_getElem hb,
          List.getElem?_eq_getElem (by omega : a < glyphs.length)]
        exact this
      have e1 : wordsOf (glyphs.getD i []) = wordsOf (glyphs.getD (i + d) []) := by
        by_cases h0 : d = 0
        · rw [h0]; rfl
        · apply (ltViews_false_iff _ _).1
          refine ⟨?_, g _ _ (by omega) (by omega)⟩
          have := g (i + d) (i + (d + 1)) (by omega) hd
          rwa [ltViews_congr _ _ _ _ e.symm rfl] at this
      obtain ⟨r', a1, b1⟩ := key (i + d) (by omega)
      obtain ⟨r'', a2, b2⟩ := key (i + d + 1) (by omega)
      have := h2 (i + d) r' r'' a1 a2 (by rw [b1, b2, ← e1, e]; rfl)
      rw [ih i (by omega) e1, a1, ← Nat.add_assoc, a2, this]
  constructor
  · intro e
    obtain ⟨r, a1, b1⟩ := key i hi
    obtain ⟨r', a2, b2⟩ := key j hj
    rw [a1, a2, Option.some.injEq] at e
    rw [← b1, ← b2, e]
  · intro e
    by_cases h : i ≤ j
    · have := step (j - i) i (by omega) (by rwa [show i + (j - i) = j from by omega])
      rwa [show i + (j - i) = j from by omega] at this
    · have := step (i - j) j (by omega) (by rw [show j + (i - j) = i from by omega]; exact e.symm)
      rw [show j + (i - j) = i from by omega] at this
      exact this.symm

theorem ltWords_iff (a b : List View) (h : a.length = b.length) :
    ltWords a b = true ↔ wordsOf a < wordsOf b := by
  induction a generalizing b with
  | nil =>
    cases b with
    | nil => simp [ltWords]
    | cons b bs => exact absurd h (by simp)
  | cons x a ih =>
    cases b with
    | nil => exact absurd h (by simp)
    | cons y b =>
      have := ih b (by simpa using h)
      unfold ltWords
      rw [wordsOf, List.map_cons, wordsOf, List.map_cons, List.cons_lt_cons_iff]
      by_cases e : x.word = y.word
      · rw [if_pos e, this]
        simp [e]
      · rw [if_neg e]
        simp [e]

theorem ltViews_eq_false (a b : List View) : ltViews b a = false ↔
    a.length < b.length ∨ a.length = b.length ∧ ¬ wordsOf b < wordsOf a := by
  unfold ltViews
  by_cases h1 : b.length < a.length
  · rw [if_pos h1]
    simp only [Bool.true_eq_false, false_iff]
    omega
  · rw [if_neg h1]
    by_cases h2 : b.length > a.length
    · rw [if_pos h2]
      simp only [true_iff]
      omega
    · rw [if_neg h2, ← Bool.not_eq_true, ltWords_iff b a (by omega)]
      constructor
      · intro h; exact Or.inr ⟨by omega, h⟩
      · rintro (h | h)
        · omega
        · exact h.2

end Ppocr

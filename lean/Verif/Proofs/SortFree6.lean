import Verif.Proofs.Shown6
import Verif.Spec.SortFree6

/-! # Proofs: what `std::sort` can change in `extract_text6` -/

namespace Ppocr
open Spec

theorem perm_le_one {α : Type} {l m : List α} (h : l.Perm m) (hm : m.length ≤ 1) : l = m := by
  cases m with
  | nil => exact h.eq_nil
  | cons a m =>
    cases m with
    | nil => exact List.perm_singleton.1 h
    | cons _ _ => simp at hm

theorem up_le_one {vs : List (Words × Bool)} (h : vs.Pairwise fun a b => WordsLt a.1 b.1) (he : ∀ a ∈ vs, ∀ b ∈ vs, a.1 = b.1) : vs.length ≤ 1 := by
  cases vs with
  | nil => simp
  | cons a l =>
    cases l with
    | nil => simp
    | cons b l =>
      have := List.rel_of_pairwise_cons h (List.mem_cons_self ..)
      rw [he a (by simp) b (by simp)] at this
      exact absurd this (wordsLt_irrefl _)

/-- Picture number `g` is one of the best for the letter `a`. -/
def BestAt (imgs : List Image) (a : Image) (g : Nat) : Prop := ∃ i, imgs[g]? = some i ∧ Best6 imgs a i

theorem bestAt_match {imgs : List Image} {a : Image} {g : Nat} (h : Match6 imgs a g) : BestAt imgs a g := by
  obtain ⟨i, hi, h⟩ := h
  exact ⟨i, hi, .inl h⟩

theorem bestAt_near {imgs : List Image} {a : Image} {g : Nat} (hno : ∀ j, ¬ Match6 imgs a j) {i : Image} (hi : imgs[g]? = some i) (h : Near6 i a) :
    BestAt imgs a g := by
  refine ⟨i, hi, .inr ⟨?_, h⟩⟩
  intro j hj hx
  obtain ⟨k, hk⟩ := List.getElem?_of_mem hj
  exact hno k ⟨j, hk, hx⟩

/-- The words in the sorted lists: `near` up to the last that matches, and `kept`. -/
theorem readBy_cases {Q : List (Words × Bool) → List (Words × Bool) → Prop} {imgs : List Image} {ws : List Words} {a : Image} {o : Letter6}
    (hl : ws.length = imgs.length) (hQ : ∀ vs l, Q vs l → FlagSorted vs l) (h : ReadBy Q imgs ws a o) :
    ∃ near kept ln lk, Listing (fun v => ∃ (j : Nat) (i : Image), imgs[j]? = some i ∧ Near6 i a ∧ ws[j]? = some v)
        (fun v => ∃ j, Match6 imgs a j ∧ ws[j]? = some v) near ∧
      ((∀ j, ¬ Match6 imgs a j) → Listing (fun v => ∃ j, Kept6 imgs ws a j ∧ ws[j]? = some v) (fun _ => False) kept) ∧
      FlagSorted near ln ∧ FlagSorted kept lk ∧ o = letterFrom ln lk ∧ Q near ln ∧
      (((∃ j, Match6 imgs a j) ∧ ∃ w r, ln = (w, true) :: r ∧ ∃ j, Match6 imgs a j ∧ ws[j]? = some w) ∨
        ((∀ j, ¬ Match6 imgs a j) ∧ ((ln = [] ∧ near = []) ∨ ∃ (w : Words) (r : List (Words × Bool)) (j : Nat) (i : Image), ln = (w, false) :: r ∧ imgs[j]? = some i ∧ Near6 i a ∧ ws[j]? = some w))) := by
  obtain ⟨near, kept, ln, lk, n, k, q1, q2, e⟩ := h
  refine ⟨near, kept, ln, lk, n, k, hQ _ _ q1, hQ _ _ q2, e, q1, ?_⟩
  have q1 := hQ _ _ q1
  by_cases hm : ∃ j, Match6 imgs a j
  · obtain ⟨j, i, hi, hx⟩ := hm
    have hlt : j < ws.length := by rw [hl]; exact (List.getElem?_eq_some_iff.1 hi).1
    have hw := List.getElem?_eq_getElem hlt
    obtain ⟨w, r, e⟩ := q1.head (v := ws[j]) ((n.mem _ _).2 ⟨⟨j, i, hi, exact_near hx, hw⟩, fun _ => ⟨j, ⟨i, hi, hx⟩, hw⟩, fun _ => rfl⟩)
    refine .inl ⟨⟨j, i, hi, hx⟩, w, r, e, ?_⟩
    exact ((n.mem w true).1 (q1.perm.mem_iff.1 (by rw [e]; simp))).2.1 rfl
  · refine .inr ⟨not_exists.1 hm, ?_⟩
    cases hln : ln with
    | nil =>
      left
      refine ⟨rfl, ?_⟩
      have := q1.perm.symm
      rw [hln] at this
      exact this.eq_nil
    | cons b r =>
      right
      obtain ⟨w, b⟩ := b
      have hin := (n.mem w b).1 (q1.perm.mem_iff.1 (by rw [hln]; simp))
      obtain ⟨⟨j, i, h1, h2, h3⟩, hb⟩ := hin
      have : b = false := by
        cases b with
        | false => rfl
        | true =>
          obtain ⟨j', h', _⟩ := hb.1 rfl
          exact absurd ⟨j', h'⟩ hm
      subst this
      exact ⟨w, r, j, i, rfl, h1, h2, h3⟩

section
variable {imgs : List Image} {ws : List Words} {a : Image} {o o' : Letter6}

/-- If the best pictures have the same first word, the first two results are the same. -/
theorem same_heads (hl : ws.length = imgs.length) (h : ReadBy FlagSorted imgs ws a o) (h' : ReadBy FlagSorted imgs ws a o')
    (hh : ∀ j k v u, BestAt imgs a j → BestAt imgs a k → ws[j]? = some v → ws[k]? = some u → v.headD [] = u.headD []) :
    o.r1 = o'.r1 ∧ o.r2 = o'.r2 := by
  obtain ⟨near, kept, ln, lk, n, k, q1, q2, rfl, _, hc⟩ := readBy_cases hl (fun _ _ h => h) h
  obtain ⟨near', kept', ln', lk', n', k', q1', q2', rfl, _, hc'⟩ := readBy_cases hl (fun _ _ h => h) h'
  have en := n.unique n' (fun _ => Iff.rfl) fun _ _ => Iff.rfl
  subst en
  rcases hc with ⟨⟨j0, hm⟩, w, r, rfl, j, hj, hjw⟩ | ⟨hno, hc⟩
  · rcases hc' with ⟨_, w', r', rfl, j', hj', hjw'⟩ | ⟨hno, _⟩
    · have := hh j j' w w' (bestAt_match hj) (bestAt_match hj') hjw hjw'
      exact ⟨this, this⟩
    · exact absurd hm (hno _)
  · rcases hc' with ⟨⟨j0, hm⟩, _⟩ | ⟨_, hc'⟩
    · exact absurd hm (hno _)
    · rcases hc with ⟨rfl, rfl⟩ | ⟨w, r, j, i, rfl, h1, h2, h3⟩
      · rw [q1'.perm.eq_nil]
        exact ⟨rfl, rfl⟩
      · rcases hc' with ⟨rfl, rfl⟩ | ⟨w', r', j', i', rfl, h1', h2', h3'⟩
        · exact absurd q1.perm.eq_nil (by simp)
        · have e1 := hh j j' w w' (bestAt_near hno h1 h2) (bestAt_near hno h1' h2') h3 h3'
          have k := k hno
          have k' := k' hno
          have ek := k.unique k' (fun _ => Iff.rfl) fun _ _ => Iff.rfl
          subst ek
          have hkb : ∀ {x : Words × Bool}, x ∈ kept → ∃ j, BestAt imgs a j ∧ ws[j]? = some x.1 := by
            intro x hx
            obtain ⟨⟨j, ⟨⟨i, h1, h2, _⟩, _⟩, h3⟩, _⟩ := (k.mem x.1 x.2).1 hx
            exact ⟨j, bestAt_near hno h1 h2, h3⟩
          cases lk with
          | nil =>
            have : kept = [] := q2.perm.symm.eq_nil
            subst this
            rw [q2'.perm.eq_nil]
            exact ⟨e1, rfl⟩
          | cons x lk =>
            cases lk' with
            | nil =>
              have : kept = [] := q2'.perm.symm.eq_nil
              subst this
              exact absurd q2.perm.eq_nil (by simp)
            | cons y lk' =>
              obtain ⟨j, b, hw⟩ := hkb (q2.perm.mem_iff.1 (List.mem_cons_self ..))
              obtain ⟨j', b', hw'⟩ := hkb (q2'.perm.mem_iff.1 (List.mem_cons_self ..))
              have e2 := hh j j' _ _ b b' hw hw'
              exact ⟨e1, e2⟩

/-- If the best pictures have the same words, the reading is the same. -/
theorem same_words (hl : ws.length = imgs.length) (h : ReadBy FlagSorted imgs ws a o) (h' : ReadBy FlagSorted imgs ws a o')
    (hh : ∀ j k v u, BestAt imgs a j → BestAt imgs a k → ws[j]? = some v → ws[k]? = some u → v = u) : o = o' := by
  obtain ⟨near, kept, ln, lk, n, k, q1, q2, rfl, _, hc⟩ := readBy_cases hl (fun _ _ h => h) h
  obtain ⟨near', kept', ln', lk', n', k', q1', q2', rfl, _, hc'⟩ := readBy_cases hl (fun _ _ h => h) h'
  have en := n.unique n' (fun _ => Iff.rfl) fun _ _ => Iff.rfl
  subst en
  rcases hc with ⟨⟨j0, hm⟩, w, r, rfl, j, hj, hjw⟩ | ⟨hno, hc⟩
  · rcases hc' with ⟨_, w', r', rfl, j', hj', hjw'⟩ | ⟨hno, _⟩
    · have e1 := hh j j' w w' (bestAt_match hj) (bestAt_match hj') hjw hjw'
      have hone : (near.filter fun q => q.2).length ≤ 1 := by
        refine up_le_one (n.up.filter _) ?_
        rintro ⟨x, b⟩ hx ⟨y, c⟩ hy
        obtain ⟨hx, hb⟩ := List.mem_filter.1 hx
        obtain ⟨hy, hc⟩ := List.mem_filter.1 hy
        obtain ⟨j, hj, hjx⟩ := ((n.mem _ _).1 hx).2.1 hb
        obtain ⟨k, hk, hky⟩ := ((n.mem _ _).1 hy).2.1 hc
        exact hh j k x y (bestAt_match hj) (bestAt_match hk) hjx hky
      have f1 := perm_le_one (q1.perm.filter fun q => q.2) hone
      have f2 := perm_le_one (q1'.perm.filter fun q => q.2) hone
      subst e1
      simp only [letterFrom, if_pos, f1, f2]
    · exact absurd hm (hno _)
  · rcases hc' with ⟨⟨j0, hm⟩, _⟩ | ⟨_, hc'⟩
    · exact absurd hm (hno _)
    · have hone : near.length ≤ 1 := by
        refine up_le_one n.up ?_
        rintro ⟨x, b⟩ hx ⟨y, c⟩ hy
        obtain ⟨j, i, h1, h2, h3⟩ := ((n.mem _ _).1 hx).1
        obtain ⟨j', i', h1', h2', h3'⟩ := ((n.mem _ _).1 hy).1
        exact hh j j' x y (bestAt_near hno h1 h2) (bestAt_near hno h1' h2') h3 h3'
      have k := k hno
      have k' := k' hno
      have ek := k.unique k' (fun _ => Iff.rfl) fun _ _ => Iff.rfl
      subst ek
      have hone' : kept.length ≤ 1 := by
        refine up_le_one k.up ?_
        rintro ⟨x, b⟩ hx ⟨y, c⟩ hy
        obtain ⟨j, ⟨⟨i, h1, h2, _⟩, _⟩, h3⟩ := ((k.mem _ _).1 hx).1
        obtain ⟨j', ⟨⟨i', h1', h2', _⟩, _⟩, h3'⟩ := ((k.mem _ _).1 hy).1
        exact hh j j' x y (bestAt_near hno h1 h2) (bestAt_near hno h1' h2') h3 h3'
      rw [perm_le_one q1.perm hone, perm_le_one q1'.perm hone, perm_le_one q2.perm hone', perm_le_one q2'.perm hone']

end

/-! ## A sort that takes a given one first -/

/-- Insertion sort, beginning with element `k`. -/
def rotatingSort (k : Nat) : StdSort where
  sort lt l := insertionSort.sort lt (l.drop k ++ l.take k)
  perm lt l h := (insertionSort.perm lt _ h).trans (List.perm_append_comm.trans (by rw [List.take_append_drop]))
  sorted lt _ h := insertionSort.sorted lt _ h

theorem rotatingSort_byComparison (k : Nat) : ByComparison (rotatingSort k) := by
  intro α β f lt lt' l h
  show insertionSort.sort lt' ((l.map f).drop k ++ (l.map f).take k) = _
  rw [← List.map_drop, ← List.map_take, ← List.map_append]
  exact insertionSort_byComparison f lt lt' _ h

theorem sortBy_head {α : Type} (le : α → α → Bool) (x : α) (l : List α) (h : ∀ y ∈ l, le x y = true) : (sortBy le (x :: l)).head? = some x := by
  rw [sortBy]
  cases e : sortBy le l with
  | nil => rfl
  | cons b m =>
    have : b ∈ l := (sortBy_perm le l).mem_iff.1 (by rw [e]; simp)
    rw [insertBy, if_pos (h b this)]
    rfl

theorem rotatingSort_head {vs : List (Words × Bool)} {k : Nat} {w : Words} {b : Bool} (hk : vs[k]? = some (w, b))
    (hb : b = true ∨ ∀ q ∈ vs, q.2 = false) : ((rotatingSort k).sort flagLt vs).head? = some (w, b) := by
  show (sortBy (fun a b => !flagLt b a) (vs.drop k ++ vs.take k)).head? = _
  obtain ⟨hlt, e⟩ := List.getElem?_eq_some_iff.1 hk
  rw [List.drop_eq_getElem_cons hlt, e, List.cons_append]
  apply sortBy_head
  intro y hy
  have hy : y ∈ vs := by
    rcases List.mem_append.1 hy with h | h
    · exact List.mem_of_mem_drop h
    · exact List.mem_of_mem_take h
  rcases hb with rfl | hb
  · simp [flagLt]
  · simp [flagLt, hb y hy]

/-- Some sort reads the letter with the first word of a given one of the best pictures. -/
theorem read_best {imgs : List Image} {ws : List Words} {a : Image} {g : Nat} (hg : BestAt imgs a g) {v : Words}
    (hv : ws[g]? = some v) : ∃ k, ∀ o, ReadBy (FlagSortedBy (rotatingSort k)) imgs ws a o → o.r1 = v.headD [] := by
  have key : ∀ near, Listing (fun v => ∃ (j : Nat) (i : Image), imgs[j]? = some i ∧ Near6 i a ∧ ws[j]? = some v)
      (fun v => ∃ j, Match6 imgs a j ∧ ws[j]? = some v) near → ∃ b, (v, b) ∈ near ∧ (b = true ∨ ∀ q ∈ near, q.2 = false) := by
    intro near n
    obtain ⟨i, hi, hx | ⟨hno, hn⟩⟩ := hg
    · exact ⟨true, (n.mem _ _).2 ⟨⟨g, i, hi, exact_near hx, hv⟩, fun _ => ⟨g, ⟨i, hi, hx⟩, hv⟩, fun _ => rfl⟩, .inl rfl⟩
    · have hno' : ∀ j, ¬ Match6 imgs a j := by
        rintro j ⟨i, hi, hx⟩
        exact hno i (List.mem_of_getElem? hi) hx
      refine ⟨false, (n.mem _ _).2 ⟨⟨g, i, hi, hn, hv⟩, ⟨fun h => (by cases h), ?_⟩⟩, .inr ?_⟩
      · rintro ⟨j, hj, _⟩
        exact absurd hj (hno' j)
      · rintro ⟨w, b⟩ hq
        cases hb : b with
        | false => rfl
        | true =>
          obtain ⟨j, hj, _⟩ := ((n.mem _ _).1 hq).2.1 hb
          exact absurd hj (hno' j)
  by_cases hnear : ∃ near, Listing (fun v => ∃ (j : Nat) (i : Image), imgs[j]? = some i ∧ Near6 i a ∧ ws[j]? = some v)
      (fun v => ∃ j, Match6 imgs a j ∧ ws[j]? = some v) near
  · obtain ⟨near, n⟩ := hnear
    obtain ⟨b, hb, hbest⟩ := key near n
    obtain ⟨k, hk⟩ := List.getElem?_of_mem hb
    refine ⟨k, ?_⟩
    rintro o ⟨near', kept, ln, lk, n', _, q1, _, rfl⟩
    have en := n'.unique n (fun _ => Iff.rfl) fun _ _ => Iff.rfl
    subst en
    have hhead := rotatingSort_head hk hbest
    rw [← q1.natural (rotatingSort_byComparison k)] at hhead
    cases ln with
    | nil => cases hhead
    | cons x ln =>
      cases hhead
      unfold letterFrom
      cases b with
      | true => rfl
      | false =>
        simp only [Bool.false_eq_true, if_false]
        cases lk <;> rfl
  · refine ⟨0, ?_⟩
    rintro o ⟨near, _, _, _, n, _⟩
    exact absurd ⟨near, n⟩ hnear

end Ppocr

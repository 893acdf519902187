import Verif.Spec.Ocr2
import Verif.Proofs.Relationship

/-! # Helper lemmas: recognition of one letter -/

namespace Ppocr
open Spec

variable {α : Type}

theorem nodup_length_le {l : List Nat} {n : Nat} (hn : l.Nodup) (h : ∀ g ∈ l, g < n) :
    l.length ≤ n := by
  induction n generalizing l with
  | zero =>
    cases l with
    | nil => simp
    | cons a l => exact absurd (h a List.mem_cons_self) (by omega)
  | succ n ih =>
    have h1 := ih (l := l.erase n) (hn.erase n) (by
      intro g hg
      have h2 := (hn.mem_erase_iff).1 hg
      have := h g h2.2
      omega)
    have h2 := List.length_erase (a := n) (l := l)
    split at h2 <;> omega

theorem partitionPoint_ok (p : Nat → Res Bool) (q : Nat → Bool) :
    ∀ fuel first len, len < fuel → (∀ k, first ≤ k → k < first + len → p k = .ok (q k)) →
      (∀ j k, first ≤ j → j ≤ k → k < first + len → q k = true → q j = true) →
      ∃ r, partitionPoint p fuel first len = .ok r ∧ first ≤ r ∧ r ≤ first + len ∧
        (∀ k, first ≤ k → k < r → q k = true) ∧ (∀ k, r ≤ k → k < first + len → q k = false) := by
  intro fuel
  induction fuel with
  | zero => intro first len h; omega
  | succ fuel ih =>
    intro first len hf hp hm
    unfold partitionPoint
    by_cases h0 : len = 0
    · rw [if_pos h0]
      exact ⟨first, rfl, by omega, by omega, fun k h1 h2 => by omega, fun k h1 h2 => by omega⟩
    · rw [if_neg h0]
      have hh : len / 2 < len := by omega
      simp only []
      rw [hp (first + len / 2) (by omega) (by omega), Res.ok_bind]
      cases hq : q (first + len / 2) with
      | true =>
        rw [if_pos rfl]
        obtain ⟨r, e, h1, h2, h3, h4⟩ := ih (first + len / 2 + 1) (len - len / 2 - 1) (by omega)
          (fun k h1 h2 => hp k (by omega) (by omega))
          (fun j k h1 h2 h3 => hm j k (by omega) h2 (by omega))
        refine ⟨r, e, by omega, by omega, ?_, fun k h5 h6 => h4 k h5 (by omega)⟩
        intro k h5 h6
        by_cases hk : k ≤ first + len / 2
        · exact hm k (first + len / 2) h5 hk (by omega) hq
        · exact h3 k (by omega) h6
      | false =>
        rw [if_neg (by simp)]
        obtain ⟨r, e, h1, h2, h3, h4⟩ := ih first (len / 2) (by omega)
          (fun k h1 h2 => hp k (by omega) (by omega))
          (fun j k h1 h2 h3 => hm j k (by omega) h2 (by omega))
        refine ⟨r, e, by omega, by omega, h3, ?_⟩
        intro k h5 h6
        by_cases hk : k < first + len / 2
        · exact h4 k h5 hk
        · cases hqk : q k with
          | false => rfl
          | true =>
            have := hm (first + len / 2) k (by omega) (by omega) h6 hqk
            rw [hq] at this
            exact absurd this (by simp)

theorem removeIf_ok (p : α → Res Bool) (q : α → Bool) (l : List α) (h : ∀ a ∈ l, p a = .ok (q a)) :
    removeIf p l = .ok (l.filter fun a => !q a) := by
  induction l with
  | nil => rfl
  | cons a l ih =>
    unfold removeIf
    rw [h a List.mem_cons_self, Res.ok_bind, ih fun b hb => h b (List.mem_cons_of_mem _ hb),
      Res.ok_bind, List.filter_cons]
    cases q a <;> rfl

/-! ### Ordered index -/

theorem idx_strictWeak (data : List Nat) :
    StrictWeak fun i j : Nat => decide (data.getD i 0 < data.getD j 0) := by
  refine ⟨?_, ?_, ?_⟩
  · intro a; simp
  · intro a b c; simp only [decide_eq_true_eq]; omega
  · intro a b c; simp only [decide_eq_false_iff_not]; omega

theorem indexesOrdered_perm (S : StdSort) (data : List Nat) :
    (indexesOrdered S data).Perm (List.range data.length) := S.perm _ _ (idx_strictWeak data)

theorem indexesOrdered_sorted (S : StdSort) (data : List Nat) :
    (indexesOrdered S data).Pairwise fun i j => data.getD i 0 ≤ data.getD j 0 := by
  have := S.sorted _ (List.range data.length) (idx_strictWeak data)
  unfold indexesOrdered
  refine this.imp ?_
  intro a b h
  simpa using h

theorem mem_slice {l : List Nat} {a b g : Nat} :
    g ∈ (l.drop a).take (b - a) ↔ ∃ k, a ≤ k ∧ k < b ∧ l[k]? = some g := by
  rw [List.mem_iff_getElem?]
  constructor
  · rintro ⟨k, hk⟩
    rw [List.getElem?_take] at hk
    split at hk
    · rw [List.getElem?_drop] at hk
      exact ⟨a + k, by omega, by omega, hk⟩
    · exact absurd hk (by simp)
  · rintro ⟨k, h1, h2, h3⟩
    refine ⟨k - a, ?_⟩
    rw [List.getElem?_take, if_pos (by omega), List.getElem?_drop]
    rwa [show a + (k - a) = k from by omega]

theorem rangeBounds_ok (data idx : List Nat) (start stop : Nat)
    (hp : idx.Perm (List.range data.length))
    (hs : idx.Pairwise fun i j => data.getD i 0 ≤ data.getD j 0) :
    ∃ r, rangeBounds data idx start stop = .ok r ∧ r.Nodup ∧
      ∀ g, g ∈ r ↔ ∃ v, data[g]? = some v ∧ start ≤ v ∧ v ≤ stop := by
  have hlen : idx.length = data.length := by rw [hp.length_eq, List.length_range]
  have hin : ∀ k, k < idx.length → idx.getD k 0 < data.length := by
    intro k hk
    have : idx[k] ∈ idx := List.getElem_mem hk
    have := hp.mem_iff.1 this
    rw [List.mem_range] at this
    rw [List.getD_eq_getElem?_getD, List.getElem?_eq_getElem hk]
    exact this
  have hrd : ∀ k, k < idx.length → ∀ f : Nat → Bool, (do
      let i ← rd idx k
      let v ← rd data i
      return f v : Res Bool) = .ok (f (data.getD (idx.getD k 0) 0)) := by
    intro k hk f
    have h1 := hin k hk
    rw [rd_of_lt hk, Res.ok_bind]
    have e : idx.getD k 0 = idx[k] := by
      rw [List.getD_eq_getElem?_getD, List.getElem?_eq_getElem hk]; rfl
    rw [e] at h1 ⊢
    rw [rd_of_lt h1, Res.ok_bind, List.getD_eq_getElem?_getD, List.getElem?_eq_getElem h1]
    rfl
  have hmono : ∀ j k, j ≤ k → k < idx.length →
      data.getD (idx.getD j 0) 0 ≤ data.getD (idx.getD k 0) 0 := by
    intro j k h1 h2
    by_cases e : j = k
    · rw [e]; exact Nat.le_refl _
    · have := List.pairwise_iff_getElem.1 hs j k (by omega) h2 (by omega)
      rw [List.getD_eq_getElem?_getD (l := idx), List.getElem?_eq_getElem (by omega),
        List.getD_eq_getElem?_getD (l := idx), List.getElem?_eq_getElem h2]
      exact this
  obtain ⟨a, ea, ha1, ha2, ha3, ha4⟩ := partitionPoint_ok (fun k => do
      let i ← rd idx k
      let v ← rd data i
      return decide (v < start)) (fun k => decide (data.getD (idx.getD k 0) 0 < start))
    (data.length + 1) 0 data.length (by omega)
    (fun k _ h2 => hrd k (by omega) fun v => decide (v < start))
    (by
      intro j k _ h2 h3 h4
      have := hmono j k h2 (by omega)
      simp only [decide_eq_true_eq] at *
      omega)
  obtain ⟨b, eb, hb1, hb2, hb3, hb4⟩ := partitionPoint_ok (fun k => do
      let i ← rd idx k
      let v ← rd data i
      return !decide (stop < v)) (fun k => !decide (stop < data.getD (idx.getD k 0) 0))
    (data.length + 1) a (data.length - a) (by omega)
    (fun k _ h2 => hrd k (by omega) fun v => !decide (stop < v))
    (by
      intro j k _ h2 h3 h4
      have := hmono j k h2 (by omega)
      simp only [Bool.not_eq_true', decide_eq_false_iff_not] at *
      omega)
  refine ⟨(idx.drop a).take (b - a), ?_, ?_, ?_⟩
  · unfold rangeBounds
    rw [ea, Res.ok_bind, eb, Res.ok_bind]
    rfl
  · have hn : idx.Nodup := hp.nodup_iff.2 List.nodup_range
    exact (hn.sublist (List.drop_sublist _ _)).sublist (List.take_sublist _ _)
  · intro g
    rw [mem_slice]
    constructor
    · rintro ⟨k, h1, h2, h3⟩
      have hk : k < idx.length := by omega
      have e : idx.getD k 0 = g := by rw [List.getD_eq_getElem?_getD, h3]; rfl
      have hg := hin k hk
      rw [e] at hg
      have hv : data.getD g 0 = data[g] := by
        rw [List.getD_eq_getElem?_getD, List.getElem?_eq_getElem hg]; rfl
      refine ⟨data[g], List.getElem?_eq_getElem hg, ?_, ?_⟩
      · have := ha4 k h1 (by omega)
        rw [e, hv] at this
        simpa using this
      · have := hb3 k h1 h2
        rw [e, hv] at this
        simpa using this
    · rintro ⟨v, hv, h1, h2⟩
      have hg : g < data.length := (List.getElem?_eq_some_iff.1 hv).1
      have : g ∈ idx := hp.mem_iff.2 (List.mem_range.2 hg)
      obtain ⟨k, hk⟩ := List.mem_iff_getElem?.1 this
      have hkl : k < idx.length := (List.getElem?_eq_some_iff.1 hk).1
      have e : idx.getD k 0 = g := by rw [List.getD_eq_getElem?_getD, hk]; rfl
      have ev : data.getD g 0 = v := by rw [List.getD_eq_getElem?_getD, hv]; rfl
      refine ⟨k, ?_, ?_, hk⟩
      · apply Classical.byContradiction
        intro hc
        have := ha3 k (by omega) (by omega)
        rw [e, ev] at this
        simp only [decide_eq_true_eq] at this
        omega
      · apply Classical.byContradiction
        intro hc
        have hak : a ≤ k := by omega
        have := hb4 k (by omega) (by omega)
        rw [e, ev] at this
        simp only [Bool.not_eq_false', decide_eq_true_eq] at this
        omega

theorem getRange_ok (S : StdSort) (data : List Nat) (x d : Nat) (hx : x + d < W32) :
    ∃ r, getRange data (indexesOrdered S data) x d = .ok r ∧ r.Nodup ∧
      ∀ g, g ∈ r ↔ Near data x d g := by
  unfold getRange
  have e1 : (if x > d then usub x d else 0) = x - d := by
    split
    · exact usub_eq (by omega) (by omega)
    · omega
  rw [e1, uadd_eq hx]
  obtain ⟨r, e, hn, hm⟩ := rangeBounds_ok data (indexesOrdered S data) (x - d) (x + d)
    (indexesOrdered_perm S data) (indexesOrdered_sorted S data)
  refine ⟨r, e, hn, ?_⟩
  intro g
  rw [hm]
  constructor
  · rintro ⟨v, h1, h2, h3⟩
    exact ⟨v, h1, by omega, by omega⟩
  · rintro ⟨v, h1, h2, h3⟩
    exact ⟨v, h1, by omega, by omega⟩

/-! ### The simple universe -/

theorem tenth_eq {k : Nat} (h : k + 1 < W32) : tenth k = k / 10 := by
  unfold tenth intervalRel
  simp only []
  rw [uadd_eq h, usub_eq h (by omega)]
  congr 1

theorem computeRel_near {a b k : Nat} (ha : a < W32) (hb : b < W32) (hd1 : a ≤ b + k / 10)
    (hd2 : b ≤ a + k / 10) (hk : 0 < k) (hk2 : k * 100 < W32) :
    computeRel a b k = .ok (sim k a b) := by
  unfold computeRel sim
  have hd : (if a < b then usub b a else usub a b) = a - b + (b - a) := by
    split
    · rw [usub_eq (by omega) (by omega)]; omega
    · rw [usub_eq (by omega) (by omega)]; omega
  have hle : (a - b + (b - a)) * 100 / k ≤ 100 := by
    apply Nat.div_le_of_le_mul
    exact Nat.mul_le_mul_right _ (by omega)
  rw [hd, umul_eq (by omega)]
  unfold udiv
  rw [if_neg (by omega)]
  generalize (a - b + (b - a)) * 100 / k = q at *
  have e : usub 100 q = 100 - q := usub_eq (by simp only [W32]; omega) hle
  simp only [Res.ok_bind, e]
  rw [show decide (100 - q ≤ 100) = true from by simp]
  rfl

theorem near_iff {tab : List Nat} {v d g t : Nat} (h : tab[g]? = some t) :
    Near tab v d g ↔ t ≤ v + d ∧ v ≤ t + d := by
  constructor
  · rintro ⟨t', h1, h2⟩
    rw [h] at h1
    cases h1
    exact h2
  · intro h2
    exact ⟨t, h, h2⟩

theorem inDist_iff {a b d : Nat} (hb : b + d < W32) :
    intervalInDist a b d = true ↔ ¬ (a ≤ b + d ∧ b ≤ a + d) := by
  unfold intervalInDist
  rw [uadd_eq hb]
  split
  · by_cases h : a + d < W32
    · rw [uadd_eq h]; simp only [decide_eq_true_eq]; omega
    · omega
  · simp only [decide_eq_true_eq]; omega

open Classical in
theorem reduceWithDistance_ok {β : Type} (k : Nat) (tab : List Nat) (v d : Nat)
    (ps : List (Nat × β)) (hin : ∀ p ∈ ps, p.1 < tab.length)
    (hv : v + d < W32) :
    reduceWithDistance (intervalRel k) tab v d ps =
      .ok (ps.filter fun p => decide (Near tab v d p.1)) := by
  unfold reduceWithDistance
  rw [removeIf_ok _ (fun p => !decide (Near tab v d p.1))]
  · congr 1
    apply List.filter_congr
    intro p _
    simp
  · intro p hp
    have h1 := hin p hp
    rw [rd_of_lt h1, Res.ok_bind]
    show Res.ok (intervalInDist _ v d) = _
    congr 1
    rw [Bool.eq_iff_iff, inDist_iff hv]
    rw [Bool.not_eq_true', decide_eq_false_iff_not, near_iff (List.getElem?_eq_getElem h1)]

theorem emplaceAll_ok (cap : Nat) (l : List Nat) (ps : List (Nat × Unit))
    (h : ps.length + l.length ≤ cap) :
    emplaceAll cap l ps = .ok (ps ++ l.map fun i => (i, ())) := by
  induction l generalizing ps with
  | nil => simp [emplaceAll]
  | cons a l ih =>
    simp only [List.length_cons] at h
    unfold emplaceAll
    rw [if_pos (by omega), ih _ (by simp; omega)]
    simp

theorem loadSimple_ok (img img90 : Image) (val : Simple → Nat) (ss : List Simple)
    (h : ∀ s ∈ ss, s.load img img90 = .ok (val s)) :
    loadSimple img img90 ss = .ok (ss.map fun s => (s, val s)) := by
  induction ss with
  | nil => rfl
  | cons s ss ih =>
    unfold loadSimple
    rw [h s List.mem_cons_self, Res.ok_bind, ih fun t ht => h t (List.mem_cons_of_mem _ ht)]
    rfl

theorem Spec.SimpleOk.tenth {val : Simple → Nat} {n : Nat} {s : Simple} (h : SimpleOk val n s) :
    Ppocr.tenth s.k = s.k / 10 := by
  have := h.pos
  have := h.small
  exact tenth_eq (by omega)

open Classical in
theorem reduceSimple_ok (val : Simple → Nat) (n : Nat) (ss : List Simple)
    (ok : ∀ s ∈ ss, SimpleOk val n s) (ps : List (Nat × Unit)) (hin : ∀ p ∈ ps, p.1 < n) :
    reduceSimple (ss.map fun s => (s, val s)) ps =
      .ok (ps.filter fun p => decide (∀ s ∈ ss, Near s.tab (val s) (s.k / 10) p.1)) := by
  induction ss generalizing ps with
  | nil =>
    simp only [List.map_nil, reduceSimple]
    congr 1
    rw [List.filter_eq_self.2]
    intro p _
    simp
  | cons s ss ih =>
    have hs := ok s List.mem_cons_self
    simp only [List.map_cons]
    unfold reduceSimple
    rw [hs.tenth, reduceWithDistance_ok _ _ _ _ _ (fun p hp => by rw [hs.len]; exact hin p hp) hs.inRange,
      Res.ok_bind, ih (fun t ht => ok t (List.mem_cons_of_mem _ ht)), List.filter_filter]
    · congr 1
      apply List.filter_congr
      intro p _
      simp only [List.forall_mem_cons, Bool.decide_and, Bool.and_comm]
    · intro p hp
      exact hin p (List.mem_filter.1 hp).1

theorem compute_near {val : Simple → Nat} {n : Nat} {s : Simple} (hs : SimpleOk val n s) {g : Nat}
    (h : Near s.tab (val s) (s.k / 10) g) :
    (do let v ← rd s.tab g
        (intervalRel s.k).compute v (val s) : Res Nat) = .ok (sim s.k (s.tab.getD g 0) (val s)) := by
  obtain ⟨t, h1, h2, h3⟩ := h
  rw [rd_of_getElem? h1, Res.ok_bind, List.getD_eq_getElem?_getD, h1]
  have := hs.inRange
  exact computeRel_near (by omega) (by omega) h2 h3 hs.pos hs.small

section
variable {P : Type} [Dbl P]

theorem initProb_ok {val : Simple → Nat} {n : Nat} {s : Simple} (hs : SimpleOk val n s)
    (ps : List (Nat × Unit)) (h : ∀ p ∈ ps, Near s.tab (val s) (s.k / 10) p.1) :
    initProb s (val s) ps =
      .ok (ps.map fun p => (p.1, (Dbl.ofPct (sim s.k (s.tab.getD p.1 0) (val s)) : P))) := by
  induction ps with
  | nil => rfl
  | cons p ps ih =>
    unfold initProb
    have := compute_near hs (h p List.mem_cons_self)
    obtain ⟨t, h1, _⟩ := h p List.mem_cons_self
    rw [rd_of_getElem? h1, Res.ok_bind] at this ⊢
    rw [this, Res.ok_bind, ih fun q hq => h q (List.mem_cons_of_mem _ hq)]
    rfl

theorem updateProb_ok {val : Simple → Nat} {n : Nat} {s : Simple} (hs : SimpleOk val n s)
    (ps : List (Nat × P)) (h : ∀ p ∈ ps, Near s.tab (val s) (s.k / 10) p.1) :
    updateProb s (val s) ps =
      .ok (ps.map fun p => (p.1, Dbl.mul p.2 (Dbl.ofPct (sim s.k (s.tab.getD p.1 0) (val s))))) := by
  induction ps with
  | nil => rfl
  | cons p ps ih =>
    unfold updateProb
    have := compute_near hs (h p List.mem_cons_self)
    obtain ⟨t, h1, _⟩ := h p List.mem_cons_self
    rw [rd_of_getElem? h1, Res.ok_bind] at this ⊢
    rw [this, Res.ok_bind, ih fun q hq => h q (List.mem_cons_of_mem _ hq)]
    rfl

theorem updateAll_ok {val : Simple → Nat} {n : Nat} (ss : List Simple)
    (ok : ∀ s ∈ ss, SimpleOk val n s) (ps : List (Nat × P))
    (h : ∀ p ∈ ps, ∀ s ∈ ss, Near s.tab (val s) (s.k / 10) p.1) :
    updateAll (ss.map fun s => (s, val s)) ps = .ok (ps.map fun p => (p.1,
      ss.foldl (fun a s => Dbl.mul a (Dbl.ofPct (sim s.k (s.tab.getD p.1 0) (val s)))) p.2)) := by
  induction ss generalizing ps with
  | nil => simp [updateAll]
  | cons s ss ih =>
    simp only [List.map_cons]
    unfold updateAll
    rw [updateProb_ok (ok s List.mem_cons_self) ps fun p hp => h p hp s List.mem_cons_self, Res.ok_bind,
      ih (fun t ht => ok t (List.mem_cons_of_mem _ ht)), List.map_map]
    · rfl
    · intro p hp t ht
      obtain ⟨q, hq, rfl⟩ := List.mem_map.1 hp
      exact h q hq t (List.mem_cons_of_mem _ ht)

open Classical in
theorem computeSimpleUniverse_ok (S : StdSort) (cap n : Nat) (first : Simple) (ss : List Simple)
    (img img90 : Image) (val : Simple → Nat)
    (hload : ∀ s ∈ first :: ss, s.load img img90 = .ok (val s))
    (ok : ∀ s ∈ first :: ss, SimpleOk val n s) (hcap : n ≤ cap) :
    ∃ r : List Nat, computeSimpleUniverse cap first ss (indexesOrdered S first.tab) img img90 =
        .ok (r.map fun g => (g, (score val first ss g : P))) ∧ r.Nodup ∧
      ∀ g, g ∈ r ↔ ∀ s ∈ first :: ss, Near s.tab (val s) (s.k / 10) g := by
  have h1 := ok first List.mem_cons_self
  obtain ⟨r, e, hn, hm⟩ := getRange_ok S first.tab (val first) (first.k / 10) h1.inRange
  have hlt : ∀ g ∈ r, g < n := by
    intro g hg
    obtain ⟨t, ht, _⟩ := (hm g).1 hg
    rw [← h1.len]
    exact (List.getElem?_eq_some_iff.1 ht).1
  have hlen : r.length ≤ n := by
    exact nodup_length_le hn hlt
  have hstep : (do
      let ps ← reduceSimple (ss.map fun s => (s, val s)) (r.map fun i => (i, ()))
      let ps ← initProb (P := P) first (val first) ps
      updateAll (ss.map fun s => (s, val s)) ps) = .ok ((r.filter fun g =>
        decide (∀ s ∈ ss, Near s.tab (val s) (s.k / 10) g)).map fun g =>
          (g, (score val first ss g : P))) := by
    rw [reduceSimple_ok val n ss (fun s hs => ok s (List.mem_cons_of_mem _ hs)) _
      (by
        intro p hp
        obtain ⟨g, hg, rfl⟩ := List.mem_map.1 hp
        exact hlt g hg), Res.ok_bind, List.filter_map, initProb_ok h1, Res.ok_bind, updateAll_ok (n := n) ss
      (fun s hs => ok s (List.mem_cons_of_mem _ hs)), List.map_map, List.map_map]
    · congr 1
    · intro p hp s hs
      rw [List.map_map] at hp
      obtain ⟨g, hg, rfl⟩ := List.mem_map.1 hp
      exact of_decide_eq_true (List.mem_filter.1 hg).2 s hs
    · intro p hp
      obtain ⟨g, hg, rfl⟩ := List.mem_map.1 hp
      exact (hm g).1 (List.mem_filter.1 hg).1
  refine ⟨r.filter fun g => decide (∀ s ∈ ss, Near s.tab (val s) (s.k / 10) g), ?_,
    hn.sublist List.filter_sublist, ?_⟩
  · rw [← hstep]
    unfold computeSimpleUniverse
    rw [hload first List.mem_cons_self, Res.ok_bind]
    unfold initializeUniverse
    rw [h1.tenth, e, Res.ok_bind, emplaceAll_ok cap r [] (by simp; omega), Res.ok_bind,
      loadSimple_ok img img90 val ss fun s hs => hload s (List.mem_cons_of_mem _ hs), Res.ok_bind]
    rfl
  · intro g
    rw [List.mem_filter, decide_eq_true_eq, hm g, List.forall_mem_cons]

/-! ### Complex and exclusive strategies -/

theorem simOf_eq {s : Strat} {img img90 : Image} {n : Nat} (h : Safe s img img90 n) {v : s.V}
    (hv : s.load img img90 = .ok v) {g : Nat} (hg : g < n) :
    ∃ w, rd s.tab g = .ok w ∧ s.rel.compute v w = .ok (simOf s img img90 g) ∧
      simOf s img img90 g ≤ 100 ∧
      s.rel.inDist w v (s.rel.count / 2) = .ok (testOf s img img90 g) := by
  have hl : g < s.tab.length := by rw [h.len]; exact hg
  obtain ⟨v', hv', hall⟩ := h.ok
  rw [hv] at hv'
  cases hv'
  obtain ⟨⟨c, hc, hc'⟩, b, hb⟩ := hall _ (List.getElem_mem hl)
  refine ⟨s.tab[g], rd_of_lt hl, ?_, ?_, ?_⟩
  · unfold simOf
    rw [hv, Res.ok_bind, rd_of_lt hl, Res.ok_bind, hc]
    rfl
  · unfold simOf
    rw [hv, Res.ok_bind, rd_of_lt hl, Res.ok_bind, hc]
    exact hc'
  · unfold testOf testRun
    rw [hv, Res.ok_bind, rd_of_lt hl, Res.ok_bind, hb]
    rfl

theorem reduceAndUpdate_ok {s : Strat} {img img90 : Image} {n : Nat} (h : Safe s img img90 n) {v : s.V}
    (hv : s.load img img90 = .ok v) (limit : P) (ps : List (Nat × P)) (hin : ∀ p ∈ ps, p.1 < n) :
    reduceAndUpdate s.rel s.tab v limit ps =
      .ok ((ps.filter fun p => Dbl.le limit (Dbl.ofPct (simOf s img img90 p.1))).map fun p =>
        (p.1, Dbl.mul p.2 (Dbl.ofPct (simOf s img img90 p.1)))) := by
  induction ps with
  | nil => rfl
  | cons p ps ih =>
    obtain ⟨w, h1, h2, h3, _⟩ := simOf_eq h hv (hin p List.mem_cons_self)
    unfold reduceAndUpdate
    rw [h1, Res.ok_bind, h2, Res.ok_bind, decide_eq_true h3,
      ih fun q hq => hin q (List.mem_cons_of_mem _ hq)]
    simp only [List.filter_cons]
    cases Dbl.le limit (Dbl.ofPct (simOf s img img90 p.1)) <;> rfl

theorem reduceComplex_ok {img img90 : Image} {n : Nat} (ss : List Strat)
    (h : ∀ s ∈ ss, Safe s img img90 n) (ps : List (Nat × P)) (hin : ∀ p ∈ ps, p.1 < n) :
    reduceComplex img img90 ss ps = .ok ((ps.filter fun p => complexKeep P ss img img90 p.1).map
      (complexScore ss img img90)) := by
  induction ss generalizing ps with
  | nil =>
    simp only [reduceComplex, complexKeep, List.all_nil]
    congr 1
    rw [List.filter_eq_self.2 (by intros; rfl)]
    exact (List.map_id _).symm
  | cons s ss ih =>
    have hs := h s List.mem_cons_self
    obtain ⟨v, hv, _⟩ := hs.ok
    unfold reduceComplex
    rw [hv, Res.ok_bind, reduceAndUpdate_ok hs hv _ ps hin, Res.ok_bind,
      ih fun t ht => h t (List.mem_cons_of_mem _ ht)]
    · congr 1
      rw [List.filter_map, List.map_map, List.filter_filter]
      have e1 : (complexScore ss img img90 ∘ fun p : Nat × P =>
          (p.1, Dbl.mul p.2 (Dbl.ofPct (simOf s img img90 p.1)))) =
          complexScore (s :: ss) img img90 := by
        funext p
        rfl
      rw [e1]
      congr 1
      apply List.filter_congr
      intro p _
      simp only [complexKeep, List.all_cons, Function.comp]
      rw [Bool.and_comm]
    · intro p hp
      obtain ⟨q, hq, rfl⟩ := List.mem_map.1 hp
      exact hin q (List.mem_filter.1 hq).1

theorem broken_nil {img img90 : Image} {g : Nat} : ¬ Broken [] img img90 g := by
  rintro ⟨s1, s, s2, h, _⟩
  cases s1 <;> cases h

theorem refused_nil {img img90 : Image} {g : Nat} : ¬ Refused [] img img90 g := by
  rintro ⟨s1, s, s2, h, _⟩
  cases s1 <;> cases h

theorem broken_cons {s : Strat} {ss : List Strat} {img img90 : Image} {g : Nat} :
    Broken (s :: ss) img img90 g ↔
      (∀ b, testRun s img img90 g ≠ .ok b) ∨ testRun s img img90 g = .ok true ∧ Broken ss img img90 g := by
  constructor
  · rintro ⟨s1, t, s2, h, h1, h2⟩
    cases s1 with
    | nil =>
      cases h
      exact .inl h2
    | cons u s1 =>
      cases h
      exact .inr ⟨h1 _ List.mem_cons_self, s1, t, s2, rfl, fun x hx => h1 x (List.mem_cons_of_mem _ hx), h2⟩
  · rintro (h | ⟨h, s1, t, s2, rfl, h1, h2⟩)
    · exact ⟨[], s, ss, rfl, by simp, h⟩
    · refine ⟨s :: s1, t, s2, rfl, ?_, h2⟩
      intro x hx
      rcases List.mem_cons.1 hx with rfl | hx
      · exact h
      · exact h1 x hx

theorem refused_cons {s : Strat} {ss : List Strat} {img img90 : Image} {g : Nat} :
    Refused (s :: ss) img img90 g ↔
      testRun s img img90 g = .ok false ∨ testRun s img img90 g = .ok true ∧ Refused ss img img90 g := by
  constructor
  · rintro ⟨s1, t, s2, h, h1, h2⟩
    cases s1 with
    | nil =>
      cases h
      exact .inl h2
    | cons u s1 =>
      cases h
      exact .inr ⟨h1 _ List.mem_cons_self, s1, t, s2, rfl, fun x hx => h1 x (List.mem_cons_of_mem _ hx), h2⟩
  · rintro (h | ⟨h, s1, t, s2, rfl, h1, h2⟩)
    · exact ⟨[], s, ss, rfl, by simp, h⟩
    · refine ⟨s :: s1, t, s2, rfl, ?_, h2⟩
      intro x hx
      rcases List.mem_cons.1 hx with rfl | hx
      · exact h
      · exact h1 x hx

/-- The outcome of all tests on a glyph. -/
theorem loadExclusive_run {img img90 : Image} (ss : List Strat) (h : ∀ s ∈ ss, ∃ v, s.load img img90 = .ok v) :
    ∃ ts, loadExclusive img img90 ss = .ok ts ∧ ∀ g,
      (Broken ss img img90 g ↔ ∀ b, allTests ts g ≠ .ok b) ∧
      (Refused ss img img90 g ↔ allTests ts g = .ok false) ∧
      (∀ b, allTests ts g = .ok b → b = ss.all fun s => testOf s img img90 g) ∧
      ((∀ s ∈ ss, testRun s img img90 g = .ub ∨ ∃ b, testRun s img img90 g = .ok b) →
        allTests ts g = .ub ∨ ∃ b, allTests ts g = .ok b) := by
  induction ss with
  | nil =>
    refine ⟨[], rfl, fun g => ⟨⟨fun h => absurd h broken_nil, fun h => absurd rfl (h true)⟩,
      ⟨fun h => absurd h refused_nil, fun h => by cases h⟩, fun b h => ?_, fun _ => .inr ⟨true, rfl⟩⟩⟩
    cases h
    rfl
  | cons s ss ih =>
    obtain ⟨v, hv⟩ := h s List.mem_cons_self
    obtain ⟨ts, e, hts⟩ := ih fun t ht => h t (List.mem_cons_of_mem _ ht)
    refine ⟨(fun i => do
      let w ← rd s.tab i
      s.rel.inDist w v (s.rel.count / 2)) :: ts, ?_, ?_⟩
    · unfold loadExclusive
      rw [hv, Res.ok_bind, e, Res.ok_bind]
      rfl
    · intro g
      obtain ⟨i1, i2, i3, i4⟩ := hts g
      have et : (do
          let w ← rd s.tab g
          s.rel.inDist w v (s.rel.count / 2)) = testRun s img img90 g := by
        unfold testRun
        rw [hv, Res.ok_bind]
      rw [broken_cons, refused_cons]
      unfold allTests
      simp only [et]
      rw [List.all_cons]
      have e4 : (∀ t ∈ s :: ss, testRun t img img90 g = .ub ∨ ∃ b, testRun t img img90 g = .ok b) →
          (testRun s img img90 g = .ub ∨ ∃ b, testRun s img img90 g = .ok b) ∧
          ∀ t ∈ ss, testRun t img img90 g = .ub ∨ ∃ b, testRun t img img90 g = .ok b :=
        fun h => ⟨h s List.mem_cons_self, fun t ht => h t (List.mem_cons_of_mem _ ht)⟩
      unfold testOf at i3 ⊢
      generalize testRun s img img90 g = R at *
      cases R with
      | ok b =>
        cases b with
        | true =>
          simp only [Res.ok_bind, if_true, valueOr, Bool.true_and]
          refine ⟨?_, ?_, i3, fun h => i4 (e4 h).2⟩
          · rw [← i1]
            exact ⟨fun h => h.elim (fun h => absurd rfl (h true)) And.right, fun h => .inr ⟨trivial, h⟩⟩
          · rw [← i2]
            exact ⟨fun h => h.elim (fun h => by cases h) And.right, fun h => .inr ⟨trivial, h⟩⟩
        | false =>
          refine ⟨⟨fun h => h.elim (fun h => absurd rfl (h false)) (fun h => by cases h.1), fun h => absurd rfl (h false)⟩,
            ⟨fun _ => rfl, fun _ => .inl rfl⟩, fun b hb => ?_, fun _ => .inr ⟨false, rfl⟩⟩
          cases hb
          rfl
      | throw =>
        refine ⟨⟨fun _ b hb => by (cases hb), fun _ => .inl fun b hb => by (cases hb)⟩,
          ⟨fun h => h.elim (fun h => by cases h) (fun h => by cases h.1), fun h => by cases h⟩, fun b hb => by (cases hb), fun h => ?_⟩
        rcases (e4 h).1 with h | ⟨b, h⟩ <;> cases h
      | abort =>
        refine ⟨⟨fun _ b hb => by (cases hb), fun _ => .inl fun b hb => by (cases hb)⟩,
          ⟨fun h => h.elim (fun h => by cases h) (fun h => by cases h.1), fun h => by cases h⟩, fun b hb => by (cases hb), fun h => ?_⟩
        rcases (e4 h).1 with h | ⟨b, h⟩ <;> cases h
      | ub =>
        exact ⟨⟨fun _ b hb => by (cases hb), fun _ => .inl fun b hb => by (cases hb)⟩,
          ⟨fun h => h.elim (fun h => by cases h) (fun h => by cases h.1), fun h => by cases h⟩, fun b hb => by (cases hb), fun _ => .inl rfl⟩
      | diverge =>
        refine ⟨⟨fun _ b hb => by (cases hb), fun _ => .inl fun b hb => by (cases hb)⟩,
          ⟨fun h => h.elim (fun h => by cases h) (fun h => by cases h.1), fun h => by cases h⟩, fun b hb => by (cases hb), fun h => ?_⟩
        rcases (e4 h).1 with h | ⟨b, h⟩ <;> cases h

/-- The search for an entry that satisfies a predicate which may fail. -/
theorem anyRes_run (pred : Nat → Res Bool) (q : Nat → Bool) (l : List Nat) (hq : ∀ i b, pred i = .ok b → b = q i) :
    ((∃ pre j post, l = pre ++ j :: post ∧ (∀ k ∈ pre, pred k = .ok false) ∧ ∀ b, pred j ≠ .ok b) ↔
      ∀ b, anyRes pred l ≠ .ok b) ∧
    (∀ b, anyRes pred l = .ok b → b = l.any q) ∧
    ((∀ i ∈ l, pred i = .ub ∨ ∃ b, pred i = .ok b) → anyRes pred l = .ub ∨ ∃ b, anyRes pred l = .ok b) := by
  induction l with
  | nil =>
    refine ⟨⟨?_, fun h => absurd rfl (h false)⟩, fun b h => ?_, fun _ => .inr ⟨false, rfl⟩⟩
    · rintro ⟨pre, j, post, h, _⟩
      cases pre <;> cases h
    · cases h
      rfl
  | cons i l ih =>
    obtain ⟨i1, i2, i3⟩ := ih
    have hcons : (∃ pre j post, i :: l = pre ++ j :: post ∧ (∀ k ∈ pre, pred k = .ok false) ∧ ∀ b, pred j ≠ .ok b) ↔
        (∀ b, pred i ≠ .ok b) ∨ pred i = .ok false ∧ ∃ pre j post, l = pre ++ j :: post ∧ (∀ k ∈ pre, pred k = .ok false) ∧
          ∀ b, pred j ≠ .ok b := by
      constructor
      · rintro ⟨pre, j, post, h, h1, h2⟩
        cases pre with
        | nil =>
          cases h
          exact .inl h2
        | cons u pre =>
          cases h
          exact .inr ⟨h1 _ List.mem_cons_self, pre, j, post, rfl, fun x hx => h1 x (List.mem_cons_of_mem _ hx), h2⟩
      · rintro (h | ⟨h, pre, j, post, rfl, h1, h2⟩)
        · exact ⟨[], i, l, rfl, by simp, h⟩
        · refine ⟨i :: pre, j, post, rfl, ?_, h2⟩
          intro x hx
          rcases List.mem_cons.1 hx with rfl | hx
          · exact h
          · exact h1 x hx
    rw [hcons]
    unfold anyRes
    rw [List.any_cons]
    have hqi := hq i
    have h3 : (∀ k ∈ i :: l, pred k = .ub ∨ ∃ b, pred k = .ok b) → (pred i = .ub ∨ ∃ b, pred i = .ok b) ∧
        ∀ k ∈ l, pred k = .ub ∨ ∃ b, pred k = .ok b :=
      fun h => ⟨h i List.mem_cons_self, fun t ht => h t (List.mem_cons_of_mem _ ht)⟩
    generalize pred i = R at *
    cases R with
    | ok b =>
      rw [← hqi b rfl]
      cases b with
      | true =>
        refine ⟨⟨fun h => h.elim (fun h => absurd rfl (h true)) (fun h => by cases h.1), fun h => absurd rfl (h true)⟩,
          fun b hb => ?_, fun _ => .inr ⟨true, rfl⟩⟩
        cases hb
        rfl
      | false =>
        simp only [Res.ok_bind, Bool.false_or]
        refine ⟨?_, i2, fun h => i3 (h3 h).2⟩
        exact ⟨fun h => h.elim (fun h => absurd rfl (h false)) (fun h => i1.1 h.2), fun h => .inr ⟨trivial, i1.2 h⟩⟩
    | throw =>
      refine ⟨⟨fun _ b hb => by (cases hb), fun _ => .inl fun b hb => by (cases hb)⟩, fun b hb => by (cases hb), fun h => ?_⟩
      rcases (h3 h).1 with h | ⟨b, h⟩ <;> cases h
    | abort =>
      refine ⟨⟨fun _ b hb => by (cases hb), fun _ => .inl fun b hb => by (cases hb)⟩, fun b hb => by (cases hb), fun h => ?_⟩
      rcases (h3 h).1 with h | ⟨b, h⟩ <;> cases h
    | ub =>
      exact ⟨⟨fun _ b hb => by (cases hb), fun _ => .inl fun b hb => by (cases hb)⟩, fun b hb => by (cases hb), fun _ => .inl rfl⟩
    | diverge =>
      refine ⟨⟨fun _ b hb => by (cases hb), fun _ => .inl fun b hb => by (cases hb)⟩, fun b hb => by (cases hb), fun h => ?_⟩
      rcases (h3 h).1 with h | ⟨b, h⟩ <;> cases h

theorem anyRes_ok (pred : Nat → Res Bool) (q : Nat → Bool) (l : List Nat)
    (h : ∀ i ∈ l, pred i = .ok (q i)) : anyRes pred l = .ok (l.any q) := by
  induction l with
  | nil => rfl
  | cons i l ih =>
    unfold anyRes
    rw [h i List.mem_cons_self, Res.ok_bind, ih fun j hj => h j (List.mem_cons_of_mem _ hj),
      List.any_cons]
    cases q i <;> rfl

theorem keepByWord_ok (byWords : List (List Nat)) (pred : Nat → Res Bool) (q : Nat → Bool) (n g : Nat)
    (hg : g < byWords.length) (hb : ∀ l ∈ byWords, ∀ j ∈ l, j < n) (h : ∀ i, i < n → pred i = .ok (q i)) :
    keepByWord byWords pred g =
      .ok ((byWords.getD g []).isEmpty || (byWords.getD g []).any q) := by
  unfold keepByWord
  have e : byWords.getD g [] = byWords[g] := by
    rw [List.getD_eq_getElem?_getD, List.getElem?_eq_getElem hg]; rfl
  rw [rd_of_lt hg, Res.ok_bind, e]
  by_cases h0 : byWords[g].isEmpty = true
  · rw [if_pos h0, h0]
    rfl
  · rw [if_neg h0, anyRes_ok pred q _ fun i hi => h i (hb _ (List.getElem_mem hg) i hi)]
    simp only [h0, Bool.false_or]

theorem reduceByWord_ok {β : Type} (byWords : List (List Nat)) (pred : Nat → Res Bool) (q : Nat → Bool)
    (n : Nat) (ps : List (Nat × β)) (hin : ∀ p ∈ ps, p.1 < byWords.length)
    (hb : ∀ l ∈ byWords, ∀ j ∈ l, j < n) (h : ∀ i, i < n → pred i = .ok (q i)) :
    reduceByWord byWords pred ps = .ok (ps.filter fun p =>
      (byWords.getD p.1 []).isEmpty || (byWords.getD p.1 []).any q) := by
  induction ps with
  | nil => rfl
  | cons p ps ih =>
    unfold reduceByWord
    rw [keepByWord_ok byWords pred q n p.1 (hin p List.mem_cons_self) hb h, Res.ok_bind,
      ih fun r hr => hin r (List.mem_cons_of_mem _ hr), Res.ok_bind, List.filter_cons]
    cases ((byWords.getD p.1 []).isEmpty || (byWords.getD p.1 []).any q) <;> rfl

/-- The test of one candidate by the glyphs of its word. -/
theorem keepByWord_run {img img90 : Image} (byWords : List (List Nat)) (ss : List Strat) (ts : List (Nat → Res Bool))
    (ht : ∀ g, (Broken ss img img90 g ↔ ∀ b, allTests ts g ≠ .ok b) ∧
      (Refused ss img img90 g ↔ allTests ts g = .ok false) ∧
      (∀ b, allTests ts g = .ok b → b = ss.all fun s => testOf s img img90 g) ∧
      ((∀ s ∈ ss, testRun s img img90 g = .ub ∨ ∃ b, testRun s img img90 g = .ok b) →
        allTests ts g = .ub ∨ ∃ b, allTests ts g = .ok b)) (g : Nat) (hg : g < byWords.length) :
    (Stuck byWords ss img img90 g ↔ ∀ b, keepByWord byWords (allTests ts) g ≠ .ok b) ∧
    (∀ b, keepByWord byWords (allTests ts) g = .ok b → b = wordKeep byWords ss img img90 g) ∧
    ((∀ j ∈ byWords.getD g [], ∀ s ∈ ss, testRun s img img90 j = .ub ∨ ∃ b, testRun s img img90 j = .ok b) →
      keepByWord byWords (allTests ts) g = .ub ∨ ∃ b, keepByWord byWords (allTests ts) g = .ok b) := by
  unfold keepByWord Stuck wordKeep
  have e : byWords.getD g [] = byWords[g] := by
    rw [List.getD_eq_getElem?_getD, List.getElem?_eq_getElem hg]; rfl
  rw [rd_of_lt hg, Res.ok_bind, e]
  obtain ⟨r1, r2, r3⟩ := anyRes_run (allTests ts) (fun j => ss.all fun s => testOf s img img90 j) byWords[g]
    fun j b h => (ht j).2.2.1 b h
  have hst : (∃ pre j post, byWords[g] = pre ++ j :: post ∧ (∀ k ∈ pre, Refused ss img img90 k) ∧ Broken ss img img90 j) ↔
      ∃ pre j post, byWords[g] = pre ++ j :: post ∧ (∀ k ∈ pre, allTests ts k = .ok false) ∧ ∀ b, allTests ts j ≠ .ok b := by
    constructor
    · rintro ⟨pre, j, post, h1, h2, h3⟩
      exact ⟨pre, j, post, h1, fun k hk => (ht k).2.1.1 (h2 k hk), (ht j).1.1 h3⟩
    · rintro ⟨pre, j, post, h1, h2, h3⟩
      exact ⟨pre, j, post, h1, fun k hk => (ht k).2.1.2 (h2 k hk), (ht j).1.2 h3⟩
  rw [hst, r1]
  by_cases h0 : byWords[g].isEmpty = true
  · rw [if_pos h0, h0]
    have hn : byWords[g] = [] := by simpa using h0
    refine ⟨⟨fun h => absurd (by rw [hn]; rfl) (h false), fun h => absurd rfl (h true)⟩, fun b hb => ?_, fun _ => .inr ⟨true, rfl⟩⟩
    cases hb
    rfl
  · rw [if_neg h0]
    simp only [h0, Bool.false_or]
    exact ⟨trivial, r2, fun h => r3 fun j hj => (ht j).2.2.2 (h j hj)⟩

omit [Dbl P] in
theorem reduceExclusive_ok {img img90 : Image} (byWords : List (List Nat)) (ss : List Strat)
    (h : ∀ s ∈ ss, ∃ v, s.load img img90 = .ok v) (ps : List (Nat × P)) (hin : ∀ p ∈ ps, p.1 < byWords.length)
    (hst : ∀ p ∈ ps, ¬ Stuck byWords ss img img90 p.1) :
    reduceExclusive byWords img img90 ss ps =
      .ok (ps.filter fun p => wordKeep byWords ss img img90 p.1) := by
  unfold reduceExclusive
  cases hps : ps with
  | nil => rfl
  | cons p ps' =>
    rw [if_neg (by simp), ← hps]
    obtain ⟨ts, e, hts⟩ := loadExclusive_run ss h
    rw [e, Res.ok_bind]
    clear hps
    induction ps with
    | nil => rfl
    | cons p ps ih =>
      obtain ⟨k1, k2, _⟩ := keepByWord_run byWords ss ts hts p.1 (hin p List.mem_cons_self)
      have hk : ∃ b, keepByWord byWords (allTests ts) p.1 = .ok b := Classical.byContradiction fun hn =>
        hst p List.mem_cons_self (k1.2 fun b hb => hn ⟨b, hb⟩)
      obtain ⟨b, hb⟩ := hk
      unfold reduceByWord
      rw [hb, Res.ok_bind, ih (fun r hr => hin r (List.mem_cons_of_mem _ hr)) (fun r hr => hst r (List.mem_cons_of_mem _ hr)),
        Res.ok_bind, List.filter_cons, ← k2 b hb]
      cases b <;> rfl

omit [Dbl P] in
/-- A candidate on which the search fails makes the whole reduction undefined. -/
theorem reduceExclusive_stuck {img img90 : Image} (byWords : List (List Nat)) (ss : List Strat)
    (h : ∀ s ∈ ss, ∃ v, s.load img img90 = .ok v) (ps : List (Nat × P)) (hin : ∀ p ∈ ps, p.1 < byWords.length)
    (hub : ∀ l ∈ byWords, ∀ j ∈ l, ∀ s ∈ ss, testRun s img img90 j = .ub ∨ ∃ b, testRun s img img90 j = .ok b)
    (hst : ∃ p ∈ ps, Stuck byWords ss img img90 p.1) : reduceExclusive byWords img img90 ss ps = .ub := by
  unfold reduceExclusive
  cases hps : ps with
  | nil =>
    rw [hps] at hst
    obtain ⟨p, hp, _⟩ := hst
    cases hp
  | cons p ps' =>
    rw [if_neg (by simp), ← hps]
    obtain ⟨ts, e, hts⟩ := loadExclusive_run ss h
    rw [e, Res.ok_bind]
    clear hps
    induction ps with
    | nil =>
      obtain ⟨p, hp, _⟩ := hst
      cases hp
    | cons p ps ih =>
      have hp := hin p List.mem_cons_self
      obtain ⟨k1, _, k3⟩ := keepByWord_run byWords ss ts hts p.1 hp
      have hl : byWords.getD p.1 [] ∈ byWords := by
        rw [List.getD_eq_getElem?_getD, List.getElem?_eq_getElem hp]
        exact List.getElem_mem hp
      unfold reduceByWord
      rcases k3 (hub _ hl) with hk | ⟨b, hk⟩
      · rw [hk, Res.ub_bind]
      · rw [hk, Res.ok_bind, ih (fun r hr => hin r (List.mem_cons_of_mem _ hr)) ?_, Res.ub_bind]
        obtain ⟨q, hq, hs⟩ := hst
        rcases List.mem_cons.1 hq with rfl | hq
        · exact absurd hk (k1.1 hs b)
        · exact ⟨q, hq, hs⟩

end

/-! ### Sorting and removal of duplicates -/

section
variable {P : Type} [LawfulDbl P]

theorem le_refl_P (a : P) : Dbl.le a a = true := by
  cases h : Dbl.le a a with
  | true => rfl
  | false =>
    have := LawfulDbl.total a a h
    rw [h] at this
    exact this

theorem gtP_strictWeak : StrictWeak fun a b : Nat × P => gtP a.2 b.2 := by
  unfold gtP
  refine ⟨?_, ?_, ?_⟩
  · intro a
    simp only [le_refl_P, Bool.not_true]
  · intro a b c h1 h2
    simp only [Bool.not_eq_true'] at *
    cases h : Dbl.le a.2 c.2 with
    | false => rfl
    | true =>
      have h3 := LawfulDbl.trans a.2 c.2 b.2 h (LawfulDbl.total _ _ h2)
      rw [h1] at h3
      exact absurd h3 (by simp)
  · intro a b c h1 h2 h3 h4
    simp only [Bool.not_eq_false'] at *
    exact ⟨LawfulDbl.trans _ _ _ h1 h3, LawfulDbl.trans _ _ _ h4 h2⟩

theorem ltByViews_strictWeak (ids : List Nat) : StrictWeak (ltByViews (P := P) ids) := by
  have g : StrictWeak fun a b : Nat × P => gtP a.2 b.2 := gtP_strictWeak
  unfold ltByViews
  refine ⟨?_, ?_, ?_⟩
  · intro a
    simp only [if_true]
    exact g.irrefl a
  · intro a b c h1 h2
    split at h1 <;> split at h2
    · rename_i e1 e2
      rw [if_pos (by omega)]
      exact g.trans a b c h1 h2
    · rename_i e1 e2
      rw [if_neg (by omega)]
      simp only [decide_eq_true_eq] at *
      omega
    · rename_i e1 e2
      rw [if_neg (by omega)]
      simp only [decide_eq_true_eq] at *
      omega
    · simp only [decide_eq_true_eq] at *
      rw [if_neg (by omega), decide_eq_true_eq]
      omega
  · intro a b c h1 h2 h3 h4
    have e1 : ids.getD a.1 0 = ids.getD b.1 0 := by
      apply Classical.byContradiction
      intro hne
      rw [if_neg hne] at h1
      rw [if_neg (Ne.symm hne)] at h2
      simp only [decide_eq_false_iff_not] at h1 h2
      omega
    have e2 : ids.getD b.1 0 = ids.getD c.1 0 := by
      apply Classical.byContradiction
      intro hne
      rw [if_neg hne] at h3
      rw [if_neg (Ne.symm hne)] at h4
      simp only [decide_eq_false_iff_not] at h3 h4
      omega
    rw [if_pos e1] at h1
    rw [if_pos e1.symm] at h2
    rw [if_pos e2] at h3
    rw [if_pos e2.symm] at h4
    rw [if_pos (e1.trans e2), if_pos (e1.trans e2).symm]
    exact g.incomp a b c h1 h2 h3 h4

theorem pairwise_short {α : Type} {R : α → α → Prop} {l : List α} (h : l.length ≤ 1) : l.Pairwise R := by
  match l, h with
  | [], _ => exact List.Pairwise.nil
  | [a], _ => simp
  | a :: b :: l, h => simp at h

theorem sortByViews_ok (S : StdSort) (ids : List Nat) (ps : List (Nat × P))
    (hin : ∀ p ∈ ps, p.1 < ids.length) :
    ∃ r, sortByViews S ids ps = .ok r ∧ r.Perm ps ∧
      r.Pairwise fun a b => ltByViews ids b a = false := by
  unfold sortByViews
  split
  · rename_i h
    exact ⟨ps, rfl, List.Perm.refl _, pairwise_short h⟩
  · rw [if_pos (by rw [List.all_eq_true]; intro p hp; exact decide_eq_true (hin p hp))]
    exact ⟨_, rfl, S.perm _ _ (ltByViews_strictWeak ids), S.sorted _ _ (ltByViews_strictWeak ids)⟩

theorem sortByProb_ok (S : StdSort) (ps : List (Nat × P)) :
    (sortByProb S ps).Perm ps ∧ (sortByProb S ps).Pairwise fun a b => Dbl.le b.2 a.2 = true := by
  unfold sortByProb
  split
  · rename_i h
    exact ⟨List.Perm.refl _, pairwise_short h⟩
  · refine ⟨S.perm _ _ gtP_strictWeak, ?_⟩
    refine (S.sorted _ ps gtP_strictWeak).imp ?_
    intro a b h
    unfold gtP at h
    simpa using h

theorem ltByViews_false {ids : List Nat} {a b : Nat × P} (h : ltByViews ids b a = false) :
    ids.getD a.1 0 ≤ ids.getD b.1 0 ∧
      (ids.getD a.1 0 = ids.getD b.1 0 → Dbl.le b.2 a.2 = true) := by
  unfold ltByViews at h
  split at h
  · rename_i e
    refine ⟨by omega, fun _ => ?_⟩
    unfold gtP at h
    simpa using h
  · simp only [decide_eq_false_iff_not] at h
    exact ⟨by omega, fun e => by omega⟩

omit [LawfulDbl P] in
theorem eqViews_ok {ids : List Nat} {a b : Nat × P} (ha : a.1 < ids.length) (hb : b.1 < ids.length) :
    eqViews ids a b = .ok (decide (ids.getD a.1 0 = ids.getD b.1 0)) := by
  unfold eqViews
  rw [rd_of_lt ha, Res.ok_bind, rd_of_lt hb, Res.ok_bind, List.getD_eq_getElem?_getD,
    List.getD_eq_getElem?_getD, List.getElem?_eq_getElem ha, List.getElem?_eq_getElem hb]
  rfl

theorem uniqueFrom_ok (ids : List Nat) (l : List (Nat × P)) (last : Nat × P)
    (hin : ∀ p ∈ last :: l, p.1 < ids.length)
    (hs : (last :: l).Pairwise fun a b => ltByViews ids b a = false) :
    ∃ r, uniqueFrom (eqViews ids) last l = .ok r ∧ r.Sublist (last :: l) ∧
      (r.Pairwise fun a b => ids.getD a.1 0 < ids.getD b.1 0) ∧
      (∀ u ∈ last :: l, ∃ p ∈ r, ids.getD p.1 0 = ids.getD u.1 0 ∧ Dbl.le u.2 p.2 = true) := by
  induction l generalizing last with
  | nil =>
    refine ⟨[last], rfl, List.Sublist.refl _, by simp, ?_⟩
    intro u hu
    rw [List.mem_singleton] at hu
    subst hu
    exact ⟨u, List.mem_singleton_self _, rfl, le_refl_P _⟩
  | cons b l ih =>
    unfold uniqueFrom
    rw [eqViews_ok (hin _ List.mem_cons_self) (hin _ (List.mem_cons_of_mem _ List.mem_cons_self)),
      Res.ok_bind]
    rw [List.pairwise_cons] at hs
    have hlb := ltByViews_false (hs.1 b List.mem_cons_self)
    by_cases e : ids.getD last.1 0 = ids.getD b.1 0
    · rw [decide_eq_true e, if_pos rfl]
      obtain ⟨r, h1, h2, h3, h4⟩ := ih last
        (by
          intro p hp
          apply hin
          rcases List.mem_cons.1 hp with h | h
          · rw [h]; exact List.mem_cons_self
          · exact List.mem_cons_of_mem _ (List.mem_cons_of_mem _ h))
        (by
          rw [List.pairwise_cons]
          exact ⟨fun c hc => hs.1 c (List.mem_cons_of_mem _ hc), (List.pairwise_cons.1 hs.2).2⟩)
      refine ⟨r, h1, h2.trans (List.Sublist.cons_cons _ (List.sublist_cons_self _ _)), h3, ?_⟩
      intro u hu
      rcases List.mem_cons.1 hu with h | h
      · subst h
        exact h4 u List.mem_cons_self
      · rcases List.mem_cons.1 h with h | h
        · subst h
          obtain ⟨p, hp, h5, h6⟩ := h4 last List.mem_cons_self
          exact ⟨p, hp, h5.trans e, LawfulDbl.trans _ _ _ (hlb.2 e) h6⟩
        · exact h4 u (List.mem_cons_of_mem _ h)
    · rw [decide_eq_false e, if_neg (by simp)]
      obtain ⟨r, h1, h2, h3, h4⟩ := ih b (fun p hp => hin p (List.mem_cons_of_mem _ hp)) hs.2
      rw [h1, Res.ok_bind]
      refine ⟨last :: r, rfl, List.Sublist.cons_cons _ h2, ?_, ?_⟩
      · rw [List.pairwise_cons]
        refine ⟨?_, h3⟩
        intro c hc
        rcases List.mem_cons.1 (h2.subset hc) with h | h
        · rw [h]; omega
        · have := ltByViews_false ((List.pairwise_cons.1 hs.2).1 c h)
          omega
      · intro u hu
        rcases List.mem_cons.1 hu with h | h
        · subst h
          exact ⟨u, List.mem_cons_self, rfl, le_refl_P _⟩
        · obtain ⟨p, hp, h5⟩ := h4 u h
          exact ⟨p, List.mem_cons_of_mem _ hp, h5⟩

/-- Removing the duplicates of a list sorted by views and sorting the rest by probability selects the best
candidates. -/
theorem unique_best (S : StdSort) (ids : List Nat) (ps : List (Nat × P))
    (hin : ∀ p ∈ ps, p.1 < ids.length)
    (hs : ps.Pairwise fun a b => ltByViews ids b a = false) :
    ∃ r, uniqueBy (eqViews ids) ps = .ok r ∧ r.Sublist ps ∧ Best ids ps (sortByProb S r) := by
  have key : ∃ r, uniqueBy (eqViews ids) ps = .ok r ∧ r.Sublist ps ∧
      (r.Pairwise fun a b => ids.getD a.1 0 < ids.getD b.1 0) ∧
      (∀ u ∈ ps, ∃ p ∈ r, ids.getD p.1 0 = ids.getD u.1 0 ∧ Dbl.le u.2 p.2 = true) := by
    cases ps with
    | nil => exact ⟨[], rfl, List.Sublist.refl _, List.Pairwise.nil, by simp⟩
    | cons a l => exact uniqueFrom_ok ids l a hin hs
  obtain ⟨r, h1, h2, h3, h4⟩ := key
  obtain ⟨g1, g2⟩ := sortByProb_ok S r
  refine ⟨r, h1, h2, ?_, ?_, g2, ?_⟩
  · intro p hp
    exact h2.subset (g1.mem_iff.1 hp)
  · have h5 : r.Pairwise fun a b => ids.getD a.1 0 ≠ ids.getD b.1 0 :=
      h3.imp (by intro a b h; omega)
    exact (g1.pairwise_iff (by intro a b h; exact Ne.symm h)).2 h5
  · intro u hu
    obtain ⟨p, hp, h5⟩ := h4 u hu
    exact ⟨p, g1.mem_iff.2 hp, h5⟩

theorem insertViews_ok (glyphs : List (List View)) (limit : P) (ps : List (Nat × P))
    (hin : ∀ p ∈ ps, p.1 < glyphs.length) (hs : ps.Pairwise fun a b => Dbl.le b.2 a.2 = true) :
    insertViews glyphs limit ps =
      .ok ((ps.filter fun p => Dbl.le limit p.2).flatMap fun p => glyphs.getD p.1 []) := by
  induction ps with
  | nil => rfl
  | cons p ps ih =>
    rw [List.pairwise_cons] at hs
    unfold insertViews
    have hp := hin p List.mem_cons_self
    cases hl : Dbl.le limit p.2 with
    | true =>
      rw [Bool.not_true, if_neg (by simp), rd_of_lt hp, Res.ok_bind,
        ih (fun q hq => hin q (List.mem_cons_of_mem _ hq)) hs.2, Res.ok_bind,
        List.filter_cons_of_pos (by simpa using hl), List.flatMap_cons, List.getD_eq_getElem?_getD,
        List.getElem?_eq_getElem hp]
      rfl
    | false =>
      rw [Bool.not_false, if_pos rfl, List.filter_cons_of_neg (by simp [hl])]
      have : ps.filter (fun p => Dbl.le limit p.2) = [] := by
        rw [List.filter_eq_nil_iff]
        intro q hq hlq
        have := LawfulDbl.trans _ _ _ hlq (hs.1 q hq)
        rw [hl] at this
        exact absurd this (by simp)
      rw [this]
      rfl

/-! ### compute_image -/

omit [LawfulDbl P] in
theorem Spec.Good.perm {n : Nat} {l l' : List (Nat × P)} (h : Good n l) (hp : l'.Perm l) : Good n l' :=
  ⟨(hp.map Prod.fst).nodup_iff.2 h.1, fun p hp' => h.2 p (hp.mem_iff.1 hp')⟩

omit [LawfulDbl P] in
theorem Spec.Good.sublist {n : Nat} {l l' : List (Nat × P)} (h : Good n l) (hp : l'.Sublist l) : Good n l' :=
  ⟨h.1.sublist (hp.map Prod.fst), fun p hp' => h.2 p (hp.subset hp')⟩

omit [LawfulDbl P] in
theorem Spec.Good.length {n : Nat} {l : List (Nat × P)} (h : Good n l) : l.length ≤ n := by
  have := nodup_length_le h.1 (n := n) (by
    intro g hg
    obtain ⟨p, hp, rfl⟩ := List.mem_map.1 hg
    exact h.2 p hp)
  rwa [List.length_map] at this

theorem finish_ok {s : Setup P} {val : Simple → Nat} {n : Nat} {img img90 : Image}
    (ok : SetupBase s val n img img90) (ps tmp : List (Nat × P)) (hg : Good n ps)
    (hs : ps.Pairwise fun a b => ltByViews s.ids b a = false) :
    ∃ S, Best s.ids ps S ∧ Good n S ∧ finish s ps tmp = .ok ⟨(match S with
      | [] => []
      | best :: _ => viewsOf s.glyphs S (Dbl.mul best.2 s.limit)), S, tmp⟩ := by
  obtain ⟨r, h1, h2, h3⟩ := unique_best s.sort s.ids ps (fun p hp => by rw [ok.ids]; exact hg.2 p hp) hs
  have hG : Good n (sortByProb s.sort r) := (hg.sublist h2).perm (sortByProb_ok s.sort r).1
  refine ⟨sortByProb s.sort r, h3, hG, ?_⟩
  unfold finish uniqueByViews
  rw [h1, Res.ok_bind]
  have hv := insertViews_ok s.glyphs (ps := sortByProb s.sort r)
    (hin := fun p hp => by rw [ok.glyphs]; exact hG.2 p hp) (hs := h3.sorted)
  revert hv
  generalize sortByProb s.sort r = S
  intro hv
  cases S with
  | nil => rfl
  | cons b S =>
    simp only []
    rw [hv, Res.ok_bind]
    rfl

theorem survivors_good {s : Setup P} {img img90 : Image} {U : List (Nat × P)} {n : Nat} (h : Good n U) :
    Good n (survivors s img img90 U) := by
  have h1 : Good n (U.filter fun p => complexKeep P s.complex img img90 p.1) :=
    h.sublist List.filter_sublist
  have h2 : Good n ((U.filter fun p => complexKeep P s.complex img img90 p.1).map
      (complexScore s.complex img img90)) := by
    constructor
    · rw [List.map_map]
      exact h1.1
    · intro p hp
      obtain ⟨q, hq, rfl⟩ := List.mem_map.1 hp
      exact h1.2 q hq
  exact h2.sublist List.filter_sublist

theorem Spec.Best.perm {ids : List Nat} {U U' S : List (Nat × P)} (h : Best ids U S) (hp : U.Perm U') :
    Best ids U' S :=
  ⟨fun p hp' => hp.mem_iff.1 (h.sub p hp'), h.distinct, h.sorted,
    fun u hu => h.cover u (hp.mem_iff.2 hu)⟩

/-- The candidates are distinct glyphs of the table. -/
theorem simpleUniverse_good (s : Setup P) (val : Simple → Nat) (n : Nat) (img img90 : Image) (ok : SetupBase s val n img img90) :
    ∃ U : List (Nat × P), computeSimpleUniverse s.cap s.first s.simple (indexesOrdered s.sort s.first.tab) img img90 = .ok U ∧ Good n U := by
  obtain ⟨r, e, hn, hm⟩ := computeSimpleUniverse_ok (P := P) s.sort s.cap n s.first s.simple img img90 val
    ok.load ok.simple ok.cap
  refine ⟨_, e, ?_⟩
  constructor
  · rw [List.map_map]
    have : (Prod.fst ∘ fun g => (g, (score val s.first s.simple g : P))) = id := rfl
    rw [this, List.map_id]
    exact hn
  · intro p hp
    obtain ⟨g, hg, rfl⟩ := List.mem_map.1 hp
    obtain ⟨t, ht, _⟩ := (hm g).1 hg s.first List.mem_cons_self
    have := (List.getElem?_eq_some_iff.1 ht).1
    rwa [(ok.simple s.first List.mem_cons_self).len] at this

theorem computeImage_ok (s : Setup P) (val : Simple → Nat) (n : Nat) (img img90 : Image)
    (ok : SetupOk s val n img img90) (tmp0 : List (Nat × P)) :
    ∃ U, computeSimpleUniverse s.cap s.first s.simple s.idx img img90 = .ok U ∧ Good n U ∧
      ∃ S o, Good n S ∧ computeImage s tmp0 img img90 = .ok o ∧ Good n o.probs ∧
      (Good n tmp0 → Good n o.tmp) ∧
      ((¬ (s.complex = [] ∧ s.exclusive = []) ∧ Best s.ids U S ∧
          (∃ p ∈ U, Dbl.le (Dbl.ofPct 100) p.2 = true) ∧ o.views = viewsOf s.glyphs S (Dbl.ofPct 100)) ∨
        ((s.complex = [] ∧ s.exclusive = [] ∨ ∀ p ∈ U, Dbl.le (Dbl.ofPct 100) p.2 = false) ∧
          Best s.ids (survivors s img img90 U) S ∧
          o.views = match S with
            | [] => []
            | best :: _ => viewsOf s.glyphs S (Dbl.mul best.2 s.limit))) := by
  obtain ⟨U, e, hU⟩ := simpleUniverse_good s val n img img90 ok.toSetupBase
  refine ⟨U, by rw [ok.idx]; exact e, hU, ?_⟩
  obtain ⟨V, e1, hp1, hs1⟩ := sortByViews_ok s.sort s.ids U (fun p hp => by rw [ok.ids]; exact hU.2 p hp)
  have hV := hU.perm hp1
  unfold computeImage
  rw [ok.idx, e, Res.ok_bind, e1, Res.ok_bind]
  by_cases hb : s.complex = [] ∧ s.exclusive = []
  · rw [if_pos (by simp [hb.1, hb.2])]
    obtain ⟨S, g1, g2, g3⟩ := finish_ok ok.toSetupBase V tmp0 hV hs1
    refine ⟨S, _, g2, g3, g2, fun h => h, Or.inr ⟨Or.inl hb, ?_, rfl⟩⟩
    have : survivors s img img90 U = U := by
      unfold survivors complexKeep wordKeep
      rw [hb.1, hb.2]
      simp only [List.all_nil]
      rw [show (U.filter fun _ => true) = U from List.filter_eq_self.2 (by intros; rfl)]
      have : (complexScore (P := P) [] img img90) = id := rfl
      rw [this, List.map_id, List.filter_eq_self.2]
      intro p _
      cases s.byWords.getD p.1 [] <;> simp
    rw [this]
    exact g1.perm hp1
  · rw [if_neg (by
      intro h
      apply hb
      simpa using h)]
    obtain ⟨u, h1, h2, h3⟩ := unique_best s.sort s.ids V
      (fun p hp => by rw [ok.ids]; exact hV.2 p hp) hs1
    have hu : Good n u := hV.sublist h2
    have hT : Good n (sortByProb s.sort u) := hu.perm (sortByProb_ok s.sort u).1
    unfold uniqueCopyByViews
    have hcap := ok.capTmp
    have hul := hu.length
    rw [h1, Res.ok_bind, if_pos (by omega), Res.pure_eq, Res.ok_bind]
    have hins := fun limit => insertViews_ok s.glyphs limit (ps := sortByProb s.sort u)
      (hin := fun p hp => by rw [ok.glyphs]; exact hT.2 p hp) (hs := h3.sorted)
    have h3' := h3.perm hp1
    revert hT h3 h3' hins
    generalize sortByProb s.sort u = T
    intro h3 hT hins h3'
    cases T with
    | nil =>
      refine ⟨[], ⟨[], V, []⟩, ⟨by simp, by simp⟩, rfl, hV, fun _ => hT, Or.inr ⟨Or.inr ?_, ?_, rfl⟩⟩
      · intro p hp
        obtain ⟨q, hq, _⟩ := h3'.cover p hp
        exact absurd hq (by simp)
      · have hU0 : U = [] := by
          cases U with
          | nil => rfl
          | cons p U =>
            obtain ⟨q, hq, _⟩ := h3'.cover p List.mem_cons_self
            exact absurd hq (by simp)
        rw [hU0]
        exact ⟨by simp, List.Pairwise.nil, List.Pairwise.nil, by simp [survivors]⟩
    | cons b T =>
      simp only []
      cases hle : Dbl.le (Dbl.ofPct 100) b.2 with
      | true =>
        rw [if_pos rfl, hins, Res.ok_bind]
        refine ⟨b :: T, _, hT, rfl, hV, fun _ => hT, Or.inl ⟨hb, h3', ?_, rfl⟩⟩
        exact ⟨b, h3'.sub b List.mem_cons_self, hle⟩
      | false =>
        have hnone : ∀ p ∈ U, Dbl.le (Dbl.ofPct 100) p.2 = false := by
          intro p hp
          obtain ⟨q, hq, _, hpq⟩ := h3'.cover p hp
          cases hc : Dbl.le (Dbl.ofPct 100) p.2 with
          | false => rfl
          | true =>
            exfalso
            have h4 := LawfulDbl.trans _ _ _ hc hpq
            rcases List.mem_cons.1 hq with h5 | h5
            · rw [h5, hle] at h4
              exact absurd h4 (by simp)
            · have := LawfulDbl.trans _ _ _ h4 ((List.pairwise_cons.1 h3'.sorted).1 q h5)
              rw [hle] at this
              exact absurd this (by simp)
        have hex := ok.exclusive U (by rw [ok.idx]; exact e) hnone
        rw [if_neg (by simp), reduceComplex_ok s.complex ok.complex V hV.2, Res.ok_bind,
          reduceExclusive_ok s.byWords s.exclusive ok.loads _ ?_ ?_, Res.ok_bind]
        · show ∃ S o, _ ∧ (do
            let ps ← sortByViews s.sort s.ids (survivors s img img90 V)
            finish s ps (b :: T)) = _ ∧ _
          have hSV := survivors_good (s := s) (img := img) (img90 := img90) hV
          obtain ⟨X, e2, hp2, hs2⟩ := sortByViews_ok s.sort s.ids (survivors s img img90 V)
            (fun p hp => by rw [ok.ids]; exact hSV.2 p hp)
          rw [e2, Res.ok_bind]
          obtain ⟨S, g1, g2, g3⟩ := finish_ok ok.toSetupBase X (b :: T) (hSV.perm hp2) hs2
          refine ⟨S, _, g2, g3, g2, fun _ => hT, Or.inr ⟨Or.inr ?_, ?_, rfl⟩⟩
          · exact hnone
          · refine (g1.perm hp2).perm ?_
            unfold survivors
            exact ((hp1.filter _).map _).filter _
        · intro p hp
          obtain ⟨q, hq, rfl⟩ := List.mem_map.1 hp
          rw [ok.byWords]
          exact hV.2 q (List.mem_filter.1 hq).1
        · intro p hp
          obtain ⟨q, hq, rfl⟩ := List.mem_map.1 hp
          obtain ⟨hq1, hq2⟩ := List.mem_filter.1 hq
          exact hex q (hp1.mem_iff.1 hq1) hq2

/-- The recognition is undefined when the search fails on a candidate. -/
theorem computeImage_stuck (s : Setup P) (val : Simple → Nat) (n : Nat) (img img90 : Image)
    (ok : SetupBase s val n img img90) (tmp0 : List (Nat × P))
    (hub : ∀ l ∈ s.byWords, ∀ j ∈ l, ∀ t ∈ s.exclusive, testRun t img img90 j = .ub ∨ ∃ b, testRun t img img90 j = .ok b)
    {U : List (Nat × P)} (e : computeSimpleUniverse s.cap s.first s.simple s.idx img img90 = .ok U)
    (hnone : ∀ p ∈ U, Dbl.le (Dbl.ofPct 100) p.2 = false)
    (hst : ∃ p ∈ U, complexKeep P s.complex img img90 p.1 = true ∧ Stuck s.byWords s.exclusive img img90 p.1) :
    computeImage s tmp0 img img90 = .ub := by
  have hU : Good n U := by
    obtain ⟨U', e', h⟩ := simpleUniverse_good s val n img img90 ok
    rw [ok.idx, e'] at e
    cases e
    exact h
  obtain ⟨p0, hp0, hk0, hs0⟩ := hst
  obtain ⟨V, e1, hp1, hs1⟩ := sortByViews_ok s.sort s.ids U (fun p hp => by rw [ok.ids]; exact hU.2 p hp)
  have hV := hU.perm hp1
  unfold computeImage
  rw [e, Res.ok_bind, e1, Res.ok_bind]
  have hb : s.exclusive ≠ [] := by
    intro hb
    rw [hb] at hs0
    obtain ⟨_, j, _, _, _, h⟩ := hs0
    exact broken_nil h
  rw [if_neg (by simp [hb])]
  obtain ⟨u, h1, h2, h3⟩ := unique_best s.sort s.ids V
    (fun p hp => by rw [ok.ids]; exact hV.2 p hp) hs1
  have hu : Good n u := hV.sublist h2
  unfold uniqueCopyByViews
  have hcap := ok.capTmp
  have hul := hu.length
  rw [h1, Res.ok_bind, if_pos (by omega), Res.pure_eq, Res.ok_bind]
  have h3' := h3.perm hp1
  revert h3'
  generalize sortByProb s.sort u = T
  intro h3'
  cases T with
  | nil =>
    obtain ⟨q, hq, _⟩ := h3'.cover p0 hp0
    exact absurd hq (by simp)
  | cons b T =>
    simp only []
    rw [if_neg (by rw [hnone b (h3'.sub b List.mem_cons_self)]; simp), reduceComplex_ok s.complex ok.complex V hV.2, Res.ok_bind,
      reduceExclusive_stuck s.byWords s.exclusive ok.loads _ ?_ hub ?_, Res.ub_bind]
    · intro p hp
      obtain ⟨q, hq, rfl⟩ := List.mem_map.1 hp
      rw [ok.byWords]
      exact hV.2 q (List.mem_filter.1 hq).1
    · exact ⟨_, List.mem_map_of_mem (List.mem_filter.2 ⟨hp1.mem_iff.2 hp0, hk0⟩), hs0⟩

end

end Ppocr

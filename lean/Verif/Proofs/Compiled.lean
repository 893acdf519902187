import Verif.Spec.Compiled
import Verif.Proofs.DictIO

/-! # The nodes of a compiled dictionary -/

namespace Ppocr.Proofs

open Ppocr.Spec

/-- Were the group of the first word empty, the same words would be inserted again and again. -/
theorem insertAfter_stuck {w : List Nat} {ws : List (List Nat)} {depth c : Nat} (h1 : rd w depth = .ok c)
    (h2 : partitionPoint (fun k => do
      let s ← rd (w :: ws) k
      return !aboveAt depth c s) (ws.length + 2) 0 (ws.length + 1) = .ok 0) :
    ∀ (fuel : Nat) {t : Trie}, insertAfter fuel (w :: ws) depth ≠ .ok t
  | 0, t, h => by simp [insertAfter] at h
  | fuel + 1, t, h => by
    unfold insertAfter at h
    rw [h1, Res.ok_bind, h2, Res.ok_bind] at h
    obtain ⟨g, h3, h⟩ := Res.bind_eq_ok.1 h
    obtain ⟨kids, h4, h⟩ := Res.bind_eq_ok.1 h
    obtain ⟨next, h5, h⟩ := Res.bind_eq_ok.1 h
    exact insertAfter_stuck h1 h2 fuel h5

theorem insertAfter_alive : ∀ (fuel : Nat) (ws : List (List Nat)) (depth : Nat) {t : Trie},
    insertAfter fuel ws depth = .ok t → Alive t ∧ (ws ≠ [] → t ≠ .nil)
  | 0, _, _, _, h => by simp [insertAfter] at h
  | _ + 1, [], _, _, h => by
    simp only [insertAfter, Res.ok.injEq] at h
    subst h
    exact ⟨trivial, fun h => absurd rfl h⟩
  | fuel + 1, w :: ws, depth, t, h => by
    unfold insertAfter at h
    obtain ⟨c, h1, h⟩ := Res.bind_eq_ok.1 h
    obtain ⟨k, h2, h⟩ := Res.bind_eq_ok.1 h
    obtain ⟨g, h3, h⟩ := Res.bind_eq_ok.1 h
    obtain ⟨kids, h4, h⟩ := Res.bind_eq_ok.1 h
    obtain ⟨next, h5, h⟩ := Res.bind_eq_ok.1 h
    simp only [Res.pure_eq, Res.ok.injEq] at h
    subst h
    refine ⟨⟨?_, (insertAfter_alive fuel _ _ h4).1, (insertAfter_alive fuel _ _ h5).1⟩, fun _ h => by cases h⟩
    unfold groupTail at h3
    split at h3
    · rename_i hb
      exact .inl hb
    · injection h3 with h3
      subst h3
      refine .inr ((insertAfter_alive fuel _ _ h4).2 ?_)
      cases k with
      | zero => exact absurd h5 (insertAfter_stuck h1 h2 fuel)
      | succ k => simp

theorem ways_length : ∀ t : Trie, (ways t).length = t.count
  | .nil => rfl
  | .node x b k n => by
    simp only [ways, Trie.count, List.length_append, List.length_cons, List.length_map, ways_length k,
      ways_length n]
    omega

theorem ways_ne : ∀ {t : Trie} {p : List Nat}, p ∈ ways t → p ≠ []
  | .node x b k n, p, h => by
    simp only [ways, List.mem_append, List.mem_cons, List.mem_map] at h
    rcases h with (rfl | ⟨q, _, rfl⟩) | h
    · simp
    · simp
    · exact ways_ne h

/-- The first value of a way is that of a node of the first level. -/
theorem ways_first : ∀ {t : Trie} {x : Nat} {p : List Nat}, x :: p ∈ ways t → ∃ m ∈ t.nodes, m.x = x
  | .node y b k n, x, p, h => by
    simp only [ways, List.mem_append, List.mem_cons, List.mem_map, List.cons.injEq] at h
    rcases h with (⟨rfl, _⟩ | ⟨q, _, rfl, _⟩) | h
    · exact ⟨⟨x, b, k⟩, by simp [Trie.nodes], rfl⟩
    · exact ⟨⟨y, b, k⟩, by simp [Trie.nodes], rfl⟩
    · obtain ⟨m, hm, e⟩ := ways_first h
      exact ⟨m, by simp [Trie.nodes, hm], e⟩

theorem ways_nodup : ∀ {t : Trie}, SortedTrie t → (ways t).Nodup
  | .nil, _ => List.nodup_nil
  | .node x b k n, ⟨h1, h2, h3⟩ => by
    have hk := ways_nodup h2
    have hn := ways_nodup h3
    have hno : ∀ p, x :: p ∉ ways n := by
      intro p hp
      obtain ⟨m, hm, e⟩ := ways_first hp
      have := h1 m hm
      omega
    simp only [ways, List.cons_append, List.nodup_cons, List.mem_append, List.mem_map]
    refine ⟨?_, ?_⟩
    · rintro (⟨q, hq, e⟩ | h)
      · exact ways_ne hq (List.cons.inj e).2
      · exact hno [] h
    · rw [List.nodup_append]
      refine ⟨?_, hn, ?_⟩
      · unfold List.Nodup at hk ⊢
        rw [List.pairwise_map]
        exact hk.imp fun h e => h (List.cons.inj e).2
      · rintro a ha b hb rfl
        obtain ⟨q, _, rfl⟩ := List.mem_map.1 ha
        exact hno q hb

theorem ways_extend : ∀ {t : Trie}, Alive t → t ≠ .nil → ∃ w, w ∈ lang t
  | .node x b k n, ⟨h1, h2, h3⟩, _ => by
    rcases h1 with rfl | h1
    · exact ⟨[x], by simp [lang]⟩
    · obtain ⟨w, hw⟩ := ways_extend h2 h1
      exact ⟨x :: w, by simp [lang, hw]⟩

theorem lang_ne : ∀ {t : Trie} {p : List Nat}, p ∈ lang t → p ≠ []
  | .node x b k n, p, h => by
    simp only [lang, List.mem_append, List.mem_map] at h
    rcases h with (h | ⟨q, _, rfl⟩) | h
    · split at h
      · rw [List.mem_singleton] at h
        simp [h]
      · simp at h
    · simp
    · exact lang_ne h

/-- The ways into a trie are the beginnings of its words. -/
theorem ways_lang : ∀ {t : Trie}, Alive t → ∀ p, p ∈ ways t ↔ p ≠ [] ∧ ∃ w ∈ lang t, p <+: w
  | .nil, _, p => by simp [ways, lang]
  | .node x b k n, ⟨h1, h2, h3⟩, p => by
    have ihk := ways_lang h2
    have ihn := ways_lang h3
    constructor
    · intro h
      refine ⟨ways_ne h, ?_⟩
      simp only [ways, List.mem_append, List.mem_cons, List.mem_map] at h
      rcases h with (rfl | ⟨q, hq, rfl⟩) | h
      · rcases h1 with rfl | h1
        · exact ⟨[x], by simp [lang], List.prefix_refl _⟩
        · obtain ⟨w, hw⟩ := ways_extend h2 h1
          exact ⟨x :: w, by simp [lang, hw], ⟨w, rfl⟩⟩
      · obtain ⟨_, w, hw, hp⟩ := (ihk q).1 hq
        exact ⟨x :: w, by simp [lang, hw], List.cons_prefix_cons.2 ⟨rfl, hp⟩⟩
      · obtain ⟨_, w, hw, hp⟩ := (ihn p).1 h
        exact ⟨w, by simp [lang, hw], hp⟩
    · rintro ⟨hne, w, hw, hp⟩
      simp only [ways, List.mem_append, List.mem_cons, List.mem_map]
      obtain ⟨c, q, rfl⟩ := List.exists_cons_of_ne_nil hne
      simp only [lang, List.mem_append, List.mem_map] at hw
      rcases hw with (hw | ⟨v, hv, rfl⟩) | hw
      · split at hw
        · rw [List.mem_singleton] at hw
          subst hw
          obtain ⟨rfl, hq⟩ := List.cons_prefix_cons.1 hp
          rw [List.prefix_nil] at hq
          subst hq
          exact .inl (.inl rfl)
        · simp at hw
      · obtain ⟨rfl, hq⟩ := List.cons_prefix_cons.1 hp
        by_cases he : q = []
        · subst he
          exact .inl (.inl rfl)
        · exact .inl (.inr ⟨q, (ihk q).2 ⟨he, v, hv, hq⟩, rfl⟩)
      · exact .inr ((ihn _).2 ⟨hne, w, hw, hp⟩)

theorem length_le_of_members : ∀ {a b : List (List Nat)}, a.Nodup → (∀ w ∈ a, w ∈ b) → a.length ≤ b.length
  | [], b, _, _ => Nat.zero_le _
  | w :: a, b, hn, h => by
    have h1 := List.nodup_cons.1 hn
    have hw := h w (by simp)
    have ih := length_le_of_members (a := a) (b := b.erase w) h1.2 (by
      intro v hv
      refine (List.mem_erase_of_ne ?_).2 (h v (by simp [hv]))
      rintro rfl
      exact h1.1 hv)
    rw [List.length_erase_of_mem hw] at ih
    have := List.length_pos_of_mem hw
    simp only [List.length_cons]
    omega

theorem exists_nodup : ∀ l : List (List Nat), ∃ m : List (List Nat), m.Nodup ∧ ∀ p, p ∈ m ↔ p ∈ l
  | [] => ⟨[], List.nodup_nil, fun _ => Iff.rfl⟩
  | w :: l => by
    obtain ⟨m, h1, h2⟩ := exists_nodup l
    by_cases h : w ∈ m
    · refine ⟨m, h1, fun p => ?_⟩
      rw [List.mem_cons, h2]
      exact ⟨.inr, fun o => o.elim (fun e => e ▸ (h2 w).1 h) id⟩
    · exact ⟨w :: m, List.nodup_cons.2 ⟨h, h1⟩, fun p => by rw [List.mem_cons, List.mem_cons, h2]⟩

theorem beginnings_exist (ws : List (List Nat)) : ∃ ps, Beginnings ws ps := by
  obtain ⟨m, h1, h2⟩ := exists_nodup (ws.flatMap fun w => (List.range w.length).map fun k => w.take (k + 1))
  refine ⟨m, h1, fun p => ?_⟩
  simp only [h2, List.mem_flatMap, List.mem_map, List.mem_range]
  constructor
  · rintro ⟨w, hw, k, hk, rfl⟩
    refine ⟨fun e => ?_, w, hw, List.take_prefix _ _⟩
    have := congrArg List.length e
    rw [List.length_take, List.length_nil] at this
    omega
  · rintro ⟨hne, w, hw, hp⟩
    have h3 := List.length_pos_iff.2 hne
    have h4 := hp.length_le
    refine ⟨w, hw, p.length - 1, by omega, ?_⟩
    rw [show p.length - 1 + 1 = p.length by omega]
    exact (List.prefix_iff_eq_take.1 hp).symm

/-- The number of nodes of a dictionary: the number of the beginnings of its words. -/
theorem dictOf_length (S : StdSort) {ws ps : List (List Nat)} {E : List FNode} (hne : ∀ w ∈ ws, w ≠ [])
    (hs : ∀ w ∈ ws, ∀ c ∈ w, Scalar c) (hsz : (ws.map List.length).sum < W32) (hp : Beginnings ws ps)
    (h : dictOf S (ws.map encAll) = .ok E) : E.length = ps.length := by
  obtain ⟨l, e1, hi, hm'⟩ := sortedWords_ok S (ws.map (List.map packed))
  obtain ⟨t, e2, hl, hst, hc⟩ := trieOf_ok (ws := l) (by
    intro w hw
    obtain ⟨v, hv, rfl⟩ := List.mem_map.1 ((hm' w).1 hw)
    simpa using hne v hv) hi
  have hsum := sum_length_le hi.nodup fun w hw => (hm' w).1 hw
  have hmap : (ws.map (List.map packed)).map List.length = ws.map List.length := by
    rw [List.map_map]
    exact List.map_congr_left fun w _ => by simp
  rw [hmap] at hsum
  obtain ⟨E', e3, hlen, _, _⟩ := flatTrie_ok t (by omega)
  have hE : E' = E := by
    unfold dictOf at h
    rw [allCodes_ok hs, Res.ok_bind, e1, Res.ok_bind, e2, Res.ok_bind, e3] at h
    injection h
  subst hE
  have hal := (insertAfter_alive _ _ _ e2).1
  have hsc : ∀ p ∈ ps, ∀ c ∈ p, Scalar c := by
    intro p hpp c hc
    obtain ⟨_, w, hw, hpw⟩ := (hp.2 p).1 hpp
    exact hs w hw c (hpw.subset hc)
  have hmem : ∀ q, q ∈ ways t ↔ q ∈ ps.map (List.map packed) := by
    intro q
    rw [ways_lang hal, List.mem_map]
    constructor
    · rintro ⟨hq, v, hv, hqv⟩
      obtain ⟨w, hw, rfl⟩ := List.mem_map.1 ((hm' v).1 (hl ▸ hv))
      refine ⟨w.take q.length, (hp.2 _).2 ⟨?_, w, hw, List.take_prefix _ _⟩, ?_⟩
      · have h1 := hqv.length_le
        rw [List.length_map] at h1
        intro he
        have := congrArg List.length he
        rw [List.length_take, List.length_nil] at this
        have := List.length_pos_iff.2 hq
        omega
      · rw [List.map_take]
        exact (List.prefix_iff_eq_take.1 hqv).symm
    · rintro ⟨p, hpp, rfl⟩
      obtain ⟨hpn, w, hw, hpw⟩ := (hp.2 p).1 hpp
      refine ⟨by simpa using hpn, w.map packed, ?_, hpw.map _⟩
      rw [hl]
      exact (hm' _).2 (List.mem_map_of_mem hw)
  have hnd : (ps.map (List.map packed)).Nodup := by
    unfold List.Nodup
    rw [List.pairwise_map]
    exact hp.1.imp_of_mem fun ha hb hab e => hab (map_packed_inj (hsc _ ha) (hsc _ hb) e)
  have a := length_le_of_members (ways_nodup hst) fun w hw => (hmem w).1 hw
  have b := length_le_of_members hnd fun w hw => (hmem w).2 hw
  rw [List.length_map] at a b
  rw [hlen, ← ways_length]
  omega

theorem showNat_no_nl (n : Nat) : (showNat n).count 10 = 0 := by
  rw [List.count_eq_zero]
  intro h
  have := showNat_dec n 10 h
  revert this
  decide

theorem nodeWrite_nl (f : FNode) : (nodeWrite f).count 10 = 1 := by
  unfold nodeWrite showBool
  cases f.term <;> simp [List.count_append, showNat_no_nl]

theorem dictWrite_nl : ∀ E : List FNode, (dictWrite E).count 10 = E.length
  | [] => rfl
  | f :: E => by
    have := dictWrite_nl E
    unfold dictWrite at this ⊢
    rw [List.flatMap_cons, List.count_append, nodeWrite_nl, this, List.length_cons]
    omega

/-- What is written determines the dictionary. -/
theorem dictWrite_inj {E E' : List FNode} (h : ∀ f ∈ E, f.fits) (h' : ∀ f ∈ E', f.fits)
    (e : dictWrite E = dictWrite E') : E = E' := by
  have a := dictRead_append h [] true [] (r := (.nodes E, ⟨[], true, true, false⟩)) rfl
  have b := dictRead_append h' [] true [] (r := (.nodes E', ⟨[], true, true, false⟩)) rfl
  rw [e, b] at a
  injection a with a
  injection a with _ a
  exact a.symm

end Ppocr.Proofs

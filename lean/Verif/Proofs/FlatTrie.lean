import Verif.Proofs.Trie

/-! # Lemmas for C41: the flat trie -/

namespace Ppocr
open Spec

theorem count_eq : ∀ t : Trie, t.count = t.nodes.length + ((t.nodes.map TNode.kids).map Trie.count).sum
  | .nil => rfl
  | .node x b k n => by
    have := count_eq n
    simp only [Trie.count, Trie.nodes, List.length_cons, List.map_cons, List.sum_cons]
    omega

theorem le_sum_of_mem_nat {a : Nat} : ∀ {l : List Nat}, a ∈ l → a ≤ l.sum
  | b :: l, h => by
    rw [List.sum_cons]
    rcases List.mem_cons.1 h with rfl | h
    · omega
    · have := le_sum_of_mem_nat h
      omega

theorem size_le_count (t : Trie) : t.size ≤ t.count := by
  have := count_eq t
  unfold Trie.size
  omega

/-- The state of the breadth first traversal: `N` lists the nodes already copied to `E`; those from `pos` on
have their children in the queue; the others know where theirs are. -/
structure FlatInv (total r : Nat) (N : List TNode) (E : List FNode) (queue : List Trie) (pos : Nat) : Prop where
  len : E.length = N.length
  pending : queue = (N.drop pos).map TNode.kids
  pos_le : pos ≤ N.length
  same : ∀ (j : Nat) n f, N[j]? = some n → E[j]? = some f →
    f.x = n.x ∧ f.term = n.term ∧ f.count = n.kids.size
  done : ∀ (j : Nat) n f, j < pos → N[j]? = some n → E[j]? = some f →
    j + f.pos ≤ N.length ∧ n.kids.nodes <+: N.drop (j + f.pos)
  total_eq : N.length + (queue.map Trie.count).sum = total
  root0 : pos = 0 → N.length = r
  root : 0 < pos → ∀ f, E[0]? = some f → f.pos = r

theorem flatInv_init (t : Trie) (h : t.count < W32) :
    FlatInv t.count t.size t.nodes (t.nodes.map FNode.ofNode) (t.nodes.map TNode.kids) 0 where
  len := by simp
  pending := by simp
  pos_le := by omega
  same := by
    intro j n f h1 h2
    rw [List.getElem?_map, h1] at h2
    simp only [Option.map_some, Option.some.injEq] at h2
    subst h2
    refine ⟨rfl, rfl, Nat.mod_eq_of_lt ?_⟩
    have h3 := count_eq t
    have h4 : n.kids.count ≤ ((t.nodes.map TNode.kids).map Trie.count).sum := by
      apply le_sum_of_mem_nat
      exact List.mem_map_of_mem (List.mem_map_of_mem (List.mem_of_getElem? h1))
    have := size_le_count n.kids
    omega
  done := by intro j n f h; omega
  total_eq := (count_eq t).symm
  root0 := fun _ => rfl
  root := by intro h; omega

theorem flatInv_step {total r : Nat} {N : List TNode} {E : List FNode} {t : Trie} {q : List Trie} {pos : Nat}
    (ht : total < W32) (h : FlatInv total r N E (t :: q) pos) :
    ∃ E', setPos E pos ((E.length - pos) % W32) = .ok E' ∧
      FlatInv total r (N ++ t.nodes) (E' ++ t.nodes.map FNode.ofNode) (q ++ t.nodes.map TNode.kids) (pos + 1) := by
  have hp : pos < N.length := by
    rcases Nat.lt_or_ge pos N.length with hlt | hge
    · exact hlt
    · have := h.pending
      rw [List.drop_of_length_le hge] at this
      simp at this
  have hpE : pos < E.length := by rw [h.len]; exact hp
  have hpend := h.pending
  rw [List.drop_eq_getElem_cons hp, List.map_cons, List.cons.injEq] at hpend
  obtain ⟨et, eq⟩ := hpend
  have htot := h.total_eq
  rw [List.map_cons, List.sum_cons] at htot
  have hmod : (E.length - pos) % W32 = N.length - pos := by
    rw [h.len]
    exact Nat.mod_eq_of_lt (by omega)
  refine ⟨E.set pos { E[pos] with pos := N.length - pos }, ?_, ?_⟩
  · unfold setPos
    rw [rd_of_lt hpE, Res.ok_bind, hmod]
    rfl
  · have hcnt := count_eq t
    constructor
    · simp [h.len]
    · rw [List.drop_append_of_le_length (by omega), List.map_append, ← eq]
    · simp; omega
    · intro j n f h1 h2
      rcases Nat.lt_or_ge j N.length with hj | hj
      · rw [List.getElem?_append_left hj] at h1
        rw [List.getElem?_append_left (by rw [List.length_set, h.len]; exact hj)] at h2
        by_cases e : pos = j
        · subst e
          rw [List.getElem?_set_self hpE] at h2
          injection h2 with h2
          subst h2
          exact h.same pos n E[pos] h1 (List.getElem?_eq_getElem hpE)
        · rw [List.getElem?_set_ne e] at h2
          exact h.same j n f h1 h2
      · rw [List.getElem?_append_right hj] at h1
        rw [List.getElem?_append_right (by rw [List.length_set, h.len]; exact hj), List.length_set, h.len,
          List.getElem?_map, h1] at h2
        simp only [Option.map_some, Option.some.injEq] at h2
        subst h2
        refine ⟨rfl, rfl, Nat.mod_eq_of_lt ?_⟩
        have h4 : n.kids.count ≤ ((t.nodes.map TNode.kids).map Trie.count).sum := by
          apply le_sum_of_mem_nat
          exact List.mem_map_of_mem (List.mem_map_of_mem (List.mem_of_getElem? h1))
        have := size_le_count n.kids
        omega
    · intro j n f hj h1 h2
      have hj' : j < N.length := by omega
      rw [List.getElem?_append_left hj'] at h1
      rw [List.getElem?_append_left (by rw [List.length_set, h.len]; exact hj')] at h2
      by_cases e : pos = j
      · subst e
        rw [List.getElem?_set_self hpE] at h2
        injection h2 with h2
        subst h2
        have e3 : pos + (N.length - pos) = N.length := by omega
        simp only []
        rw [e3, List.drop_left]
        refine ⟨by simp, ?_⟩
        have : n = N[pos] := by
          rw [List.getElem?_eq_getElem hp] at h1
          injection h1 with h1
          exact h1.symm
        rw [this, ← et]
        exact List.prefix_refl _
      · rw [List.getElem?_set_ne e] at h2
        obtain ⟨h3, h4⟩ := h.done j n f (by omega) h1 h2
        refine ⟨by simp; omega, ?_⟩
        rw [List.drop_append_of_le_length h3]
        exact h4.trans (List.prefix_append _ _)
    · rw [List.map_append, List.sum_append, List.length_append]
      omega
    · intro h0; omega
    · intro _ f hf
      rw [List.getElem?_append_left (by rw [List.length_set]; omega)] at hf
      by_cases e : pos = 0
      · subst e
        rw [List.getElem?_set_self hpE] at hf
        injection hf with hf
        subst hf
        exact h.root0 rfl
      · rw [List.getElem?_set_ne e] at hf
        exact h.root (by omega) f hf

theorem flatLevel_ok {total r : Nat} (ht : total < W32) : ∀ (ts : List Trie) (N : List TNode) (E : List FNode)
    (q : List Trie) (pos : Nat), FlatInv total r N E (ts ++ q) pos →
    ∃ E' q' N', flatLevel ts E q pos = .ok (E', q', pos + ts.length) ∧
      FlatInv total r N' E' q' (pos + ts.length) ∧ N <+: N'
  | [], N, E, q, pos, h => ⟨E, q, N, rfl, h, List.prefix_refl _⟩
  | t :: ts, N, E, q, pos, h => by
    obtain ⟨E', e, h'⟩ := flatInv_step (q := ts ++ q) ht h
    rw [List.append_assoc] at h'
    obtain ⟨E2, q2, N2, e2, h2, hp⟩ := flatLevel_ok ht ts _ _ _ _ h'
    refine ⟨E2, q2, N2, ?_, ?_, (List.prefix_append _ _).trans hp⟩
    · unfold flatLevel
      rw [e, Res.ok_bind, e2, List.length_cons]
      congr 3
      omega
    · rw [List.length_cons]
      have : pos + (ts.length + 1) = pos + 1 + ts.length := by omega
      rw [this]
      exact h2

theorem flatLoop_ok {total r : Nat} (ht : total < W32) : ∀ (fuel : Nat) (ts : List Trie) (N : List TNode)
    (E : List FNode) (pos : Nat), FlatInv total r N E ts pos → total < fuel + pos →
    ∃ E' N', flatLoop fuel ts E pos = .ok E' ∧ FlatInv total r N' E' [] N'.length ∧ N <+: N'
  | 0, ts, N, E, pos, h, hf => by
    have := h.pos_le
    have := h.total_eq
    omega
  | fuel + 1, [], N, E, pos, h, hf => by
    refine ⟨E, N, rfl, ?_, List.prefix_refl _⟩
    have : pos = N.length := by
      have h1 := h.pending
      have h2 := congrArg List.length h1
      simp at h2
      have := h.pos_le
      omega
    rw [← this]
    exact h
  | fuel + 1, t :: ts, N, E, pos, h, hf => by
    obtain ⟨E', q', N', e, h', hp⟩ := flatLevel_ok ht (t :: ts) N E [] pos (by simpa using h)
    obtain ⟨E2, N2, e2, h2, hp2⟩ := flatLoop_ok ht fuel q' N' E' _ h' (by rw [List.length_cons]; omega)
    refine ⟨E2, N2, ?_, h2, hp.trans hp2⟩
    unfold flatLoop
    rw [e, Res.ok_bind]
    exact e2

/-- The nodes of a trie found in `N` make it represented. -/
theorem rep_of_prefix {total r : Nat} {N : List TNode} {E : List FNode} (h : FlatInv total r N E [] N.length) :
    ∀ (t : Trie) (lo : Nat), lo ≤ N.length → t.nodes <+: N.drop lo → Rep E lo t
  | .nil, lo, hlo, _ => by
    show lo ≤ E.length
    rw [h.len]
    exact hlo
  | .node x b k n, lo, hlo, hp => by
    obtain ⟨rest, er⟩ := hp
    simp only [Trie.nodes, List.cons_append] at er
    have hlt : lo < N.length := by
      rcases Nat.lt_or_ge lo N.length with hh | hh
      · exact hh
      · rw [List.drop_of_length_le hh] at er
        simp at er
    have hltE : lo < E.length := by rw [h.len]; exact hlt
    rw [List.drop_eq_getElem_cons hlt, List.cons.injEq] at er
    have hN : N[lo]? = some ⟨x, b, k⟩ := by rw [List.getElem?_eq_getElem hlt, ← er.1]
    obtain ⟨h1, h2, h3⟩ := h.same lo _ _ hN (List.getElem?_eq_getElem hltE)
    obtain ⟨h4, h5⟩ := h.done lo _ _ hlt hN (List.getElem?_eq_getElem hltE)
    exact ⟨E[lo], List.getElem?_eq_getElem hltE, h1, h2, h3, rep_of_prefix h k _ h4 h5,
      rep_of_prefix h n (lo + 1) (by omega) ⟨rest, er.2⟩⟩

/-- The first node of a flat trie gives the size of the first level. -/
theorem flatTrie_ok (t : Trie) (h : t.count < W32) :
    ∃ E, flatTrie t = .ok E ∧ E.length = t.count ∧ Rep E 0 t ∧ (t ≠ .nil → rootRange E = .ok (0, t.size)) := by
  obtain ⟨E, N, e, hi, hp⟩ := flatLoop_ok h (t.count + 1) _ _ _ 0 (flatInv_init t h) (by omega)
  have hN := hi.total_eq
  simp only [List.map_nil, List.sum_nil, Nat.add_zero] at hN
  refine ⟨E, e, by rw [hi.len, hN], rep_of_prefix hi t 0 (by omega) (by simpa using hp), ?_⟩
  intro hne
  have hpos : 0 < E.length := by
    rw [hi.len, hN]
    cases t with
    | nil => exact absurd rfl hne
    | node x b k n => simp only [Trie.count]; omega
  have hr := hi.root (by rw [hi.len] at hpos; exact hpos) _ (List.getElem?_eq_getElem hpos)
  have := size_le_count t
  unfold rootRange mkRange
  rw [rd_of_lt hpos, Res.ok_bind, hr, if_pos (by rw [hi.len]; omega)]

/-! ## Looking up -/

theorem rep_size {E : List FNode} : ∀ (t : Trie) (lo : Nat), Rep E lo t → lo + t.size ≤ E.length
  | .nil, lo, h => by
    have : lo ≤ E.length := h
    simpa [Trie.size, Trie.nodes] using this
  | .node x b k n, lo, h => by
    obtain ⟨f, _, _, _, _, _, h⟩ := h
    have := rep_size n (lo + 1) h
    simp only [Trie.size, Trie.nodes, List.length_cons] at *
    omega

theorem rep_get {E : List FNode} : ∀ (t : Trie) (lo i : Nat) (m : TNode), Rep E lo t → t.nodes[i]? = some m →
    ∃ f, E[lo + i]? = some f ∧ f.x = m.x ∧ f.term = m.term ∧ f.count = m.kids.size ∧
      Rep E (lo + i + f.pos) m.kids
  | .nil, _, _, _, _, h => by simp [Trie.nodes] at h
  | .node x b k n, lo, 0, m, ⟨f, h0, h1, h2, h3, h4, _⟩, h => by
    simp only [Trie.nodes, List.getElem?_cons_zero, Option.some.injEq] at h
    subst h
    exact ⟨f, h0, h1, h2, h3, h4⟩
  | .node x b k n, lo, i + 1, m, ⟨_, _, _, _, _, _, h5⟩, h => by
    simp only [Trie.nodes, List.getElem?_cons_succ] at h
    have := rep_get n (lo + 1) i m h5 h
    rw [show lo + (i + 1) = lo + 1 + i by omega]
    exact this

theorem sorted_nodes : ∀ {t : Trie}, SortedTrie t → t.nodes.Pairwise fun a b => a.x < b.x
  | .nil, _ => List.Pairwise.nil
  | .node _ _ _ _, h => List.pairwise_cons.2 ⟨h.1, sorted_nodes h.2.2⟩

theorem sorted_kids : ∀ {t : Trie} {m : TNode}, SortedTrie t → m ∈ t.nodes → SortedTrie m.kids
  | .nil, _, _, h => by simp [Trie.nodes] at h
  | .node x b k n, m, hs, h => by
    rcases List.mem_cons.1 h with rfl | h
    · exact hs.2.1
    · exact sorted_kids hs.2.2 h

theorem find_some : ∀ {t : Trie} {c : Nat} {b : Bool} {k : Trie}, find t c = some (b, k) →
    ∃ i : Nat, t.nodes[i]? = some ⟨c, b, k⟩
  | .nil, _, _, _, h => by simp [find] at h
  | .node x b' k' n, c, b, k, h => by
    unfold find at h
    split at h
    · rename_i e
      injection h with h
      injection h with h1 h2
      subst h1 h2 e
      exact ⟨0, rfl⟩
    · obtain ⟨i, hi⟩ := find_some h
      exact ⟨i + 1, hi⟩

theorem find_none : ∀ {t : Trie} {c : Nat}, find t c = none → ∀ m ∈ t.nodes, m.x ≠ c
  | .nil, _, _, m, h => by simp [Trie.nodes] at h
  | .node x b' k' n, c, h, m, hm => by
    unfold find at h
    split at h
    · simp at h
    · rename_i e
      rcases List.mem_cons.1 hm with rfl | hm
      · exact e
      · exact find_none h m hm

theorem find_sorted {t : Trie} {c : Nat} {b : Bool} {k : Trie} (hs : SortedTrie t)
    (h : find t c = some (b, k)) : SortedTrie k := by
  obtain ⟨i, hi⟩ := find_some h
  exact sorted_kids hs (List.mem_of_getElem? hi)

/-- Where `lower_bound` stops. -/
theorem lowerBound_ok {E : List FNode} {t : Trie} {lo c : Nat} (h : Rep E lo t) (hs : SortedTrie t) :
    ∃ i, lowerBound E (lo, t.size) c = .ok (lo + i) ∧ i ≤ t.size ∧
      (∀ (j : Nat) m, j < i → t.nodes[j]? = some m → m.x < c) ∧
      (∀ (j : Nat) m, i ≤ j → t.nodes[j]? = some m → c ≤ m.x) := by
  have hx : ∀ k, lo ≤ k → k < lo + t.size → ∃ m f, t.nodes[k - lo]? = some m ∧ E[k]? = some f ∧ f.x = m.x := by
    intro k h1 h2
    have hk : k - lo < t.nodes.length := by unfold Trie.size at h2; omega
    obtain ⟨f, hf, e, _⟩ := rep_get t lo (k - lo) _ h (List.getElem?_eq_getElem hk)
    rw [show lo + (k - lo) = k by omega] at hf
    exact ⟨_, f, List.getElem?_eq_getElem hk, hf, e⟩
  obtain ⟨r, e, h1, h2, h3, h4⟩ := partitionPoint_ok (fun k => do
      let f ← rd E k
      return decide (f.x < c)) (fun k => match t.nodes[k - lo]? with
        | some m => decide (m.x < c)
        | none => false) (t.size + 1) lo t.size (by omega)
    (by
      intro k h1 h2
      obtain ⟨m, f, e1, e2, e3⟩ := hx k h1 h2
      rw [rd_of_getElem? e2, Res.ok_bind]
      simp only [e1, e3]
      rfl)
    (by
      intro j k h1 h2 h3 h4
      obtain ⟨m, f, e1, _, _⟩ := hx k (by omega) h3
      obtain ⟨m', f', e1', _, _⟩ := hx j h1 (by omega)
      simp only [e1, e1', decide_eq_true_eq] at h4 ⊢
      rcases Nat.lt_or_ge j k with hlt | hge
      · obtain ⟨hk, ek⟩ := List.getElem?_eq_some_iff.1 e1
        obtain ⟨hj, ej⟩ := List.getElem?_eq_some_iff.1 e1'
        have := List.pairwise_iff_getElem.1 (sorted_nodes hs) (j - lo) (k - lo) hj hk (by omega)
        rw [ek, ej] at this
        omega
      · have : j = k := by omega
        subst this
        rw [e1] at e1'
        injection e1' with e1'
        subst e1'
        exact h4)
  refine ⟨r - lo, ?_, by omega, ?_, ?_⟩
  · unfold lowerBound
    rw [show lo + (r - lo) = r by omega]
    exact e
  · intro j m hj hm
    have := h3 (lo + j) (by omega) (by omega)
    rw [show lo + j - lo = j by omega, hm] at this
    simpa using this
  · intro j m hj hm
    have hj' : j < t.size := (List.getElem?_eq_some_iff.1 hm).1
    have := h4 (lo + j) (by omega) (by omega)
    rw [show lo + j - lo = j by omega, hm] at this
    simpa using this

theorem findNode_none {E : List FNode} {t : Trie} {lo c : Nat} (h : Rep E lo t) (hs : SortedTrie t)
    (hn : find t c = none) : findNode E (lo, t.size) c = .ok none := by
  obtain ⟨i, e, h1, _, _⟩ := lowerBound_ok (c := c) h hs
  unfold findNode
  rw [e, Res.ok_bind]
  simp only [Nat.add_left_cancel_iff]
  by_cases hi : i = t.size
  · rw [if_pos hi]
  · rw [if_neg hi]
    have hi' : i < t.nodes.length := by unfold Trie.size at *; omega
    obtain ⟨f, e1, e2, _⟩ := rep_get t lo i _ h (List.getElem?_eq_getElem hi')
    rw [rd_of_getElem? e1, Res.ok_bind, e2, if_neg (find_none hn _ (List.getElem_mem hi'))]
    rfl

theorem findNode_some {E : List FNode} {t : Trie} {lo c : Nat} {b : Bool} {k : Trie} (h : Rep E lo t)
    (hs : SortedTrie t) (hf : find t c = some (b, k)) :
    ∃ p f, findNode E (lo, t.size) c = .ok (some p) ∧ E[p]? = some f ∧ f.x = c ∧ f.term = b ∧
      f.count = k.size ∧ Rep E (p + f.pos) k := by
  obtain ⟨i, hi⟩ := find_some hf
  obtain ⟨r, e, h1, h2, h3⟩ := lowerBound_ok (c := c) h hs
  have hir : r = i := by
    rcases Nat.lt_trichotomy r i with hlt | heq | hgt
    · have hri : r < t.nodes.length := by have := (List.getElem?_eq_some_iff.1 hi).1; omega
      have a := h3 r _ (Nat.le_refl _) (List.getElem?_eq_getElem hri)
      obtain ⟨hi', ei⟩ := List.getElem?_eq_some_iff.1 hi
      have := List.pairwise_iff_getElem.1 (sorted_nodes hs) r i hri hi' hlt
      rw [ei] at this
      simp only [] at this
      omega
    · exact heq
    · have := h2 i _ hgt hi
      simp only [] at this
      omega
  subst hir
  obtain ⟨f, e1, e2, e3, e4, e5⟩ := rep_get t lo r _ h hi
  have hr' : r < t.size := (List.getElem?_eq_some_iff.1 hi).1
  refine ⟨lo + r, f, ?_, e1, e2, e3, e4, e5⟩
  unfold findNode
  rw [e, Res.ok_bind, if_neg (by simp; omega), rd_of_getElem? e1, Res.ok_bind, if_pos e2]
  rfl

theorem kidsRange_ok {E : List FNode} {p : Nat} {f : FNode} {k : Trie} (hf : E[p]? = some f)
    (hc : f.count = k.size) (h : Rep E (p + f.pos) k) : kidsRange E p = .ok (p + f.pos, k.size) := by
  have := rep_size k _ h
  unfold kidsRange mkRange
  rw [rd_of_getElem? hf, Res.ok_bind, if_pos (by omega), hc]

theorem flatDescend_ok {E : List FNode} : ∀ (w : List Nat) (t : Trie) (lo : Nat), Rep E lo t → SortedTrie t →
    ∃ o, flatDescend E (lo, t.size) w = .ok o ∧
      match descend t w with
      | none => o = none
      | some (b, k) => ∃ f, o = some f ∧ f.term = b ∧ f.count = k.size ∧ w.getLast? = some f.x
  | [], t, lo, _, _ => ⟨none, rfl, rfl⟩
  | [c], t, lo, h, hs => by
    cases hf : find t c with
    | none =>
      refine ⟨none, ?_, ?_⟩
      · unfold flatDescend
        rw [findNode_none h hs hf, Res.ok_bind]
      · simp only [descend, hf]
    | some bk =>
      obtain ⟨b, k⟩ := bk
      obtain ⟨p, f, e, e1, e2, e3, e4, _⟩ := findNode_some h hs hf
      refine ⟨some f, ?_, ?_⟩
      · unfold flatDescend
        rw [e, Res.ok_bind]
        simp only []
        rw [rd_of_getElem? e1]
        rfl
      · simp only [descend, hf]
        exact ⟨f, rfl, e3, e4, by simp [e2]⟩
  | c :: d :: cs, t, lo, h, hs => by
    cases hf : find t c with
    | none =>
      refine ⟨none, ?_, ?_⟩
      · unfold flatDescend
        rw [findNode_none h hs hf, Res.ok_bind]
      · simp only [descend, hf]
    | some bk =>
      obtain ⟨b, k⟩ := bk
      obtain ⟨p, f, e, e1, e2, e3, e4, e5⟩ := findNode_some h hs hf
      obtain ⟨o, eo, ho⟩ := flatDescend_ok (d :: cs) k _ e5 (find_sorted hs hf)
      refine ⟨o, ?_, ?_⟩
      · unfold flatDescend
        rw [e, Res.ok_bind]
        simp only []
        rw [kidsRange_ok e1 e4 e5, Res.ok_bind]
        exact eo
      · simp only [descend, hf]
        rw [List.getLast?_cons_cons]
        exact ho

/-! ## The words of a trie -/

theorem nil_not_mem_lang : ∀ t : Trie, [] ∉ lang t
  | .nil => by simp [lang]
  | .node x b k n => by
    have := nil_not_mem_lang n
    simp only [lang, List.mem_append, not_or]
    refine ⟨⟨?_, by simp⟩, this⟩
    split <;> simp

theorem mem_lang_cons {t : Trie} (hs : SortedTrie t) (c : Nat) (cs : List Nat) :
    c :: cs ∈ lang t ↔ ∃ b k, find t c = some (b, k) ∧ (cs = [] ∧ b = true ∨ cs ∈ lang k) := by
  induction t with
  | nil => simp [lang, find]
  | node x b k n _ ih =>
    have ih := ih hs.2.2
    simp only [lang, List.mem_append, find]
    by_cases e : x = c
    · subst e
      rw [if_pos rfl]
      have hn : ¬ x :: cs ∈ lang n := by
        rw [ih]
        rintro ⟨b', k', h1, _⟩
        obtain ⟨i, hi⟩ := find_some h1
        have := hs.1 _ (List.mem_of_getElem? hi)
        simp at this
      constructor
      · rintro ((h | h) | h)
        · refine ⟨b, k, rfl, .inl ?_⟩
          split at h
          · rename_i hb
            simp at h
            exact ⟨h, hb⟩
          · simp at h
        · simp only [List.mem_map, List.cons.injEq, true_and] at h
          obtain ⟨a, ha, rfl⟩ := h
          exact ⟨b, k, rfl, .inr ha⟩
        · exact absurd h hn
      · rintro ⟨b', k', h1, h2⟩
        injection h1 with h1
        injection h1 with h1 h3
        subst h1 h3
        rcases h2 with ⟨rfl, rfl⟩ | h2
        · exact .inl (.inl (by simp))
        · exact .inl (.inr (List.mem_map_of_mem h2))
    · rw [if_neg e, ← ih]
      constructor
      · rintro ((h | h) | h)
        · split at h
          · simp only [List.mem_singleton, List.cons.injEq] at h
            exact absurd h.1.symm e
          · simp at h
        · simp only [List.mem_map, List.cons.injEq] at h
          obtain ⟨a, _, h, _⟩ := h
          exact absurd h e
        · exact h
      · exact .inr

theorem lang_nil {t : Trie} : t = .nil → lang t = [] := by rintro rfl; rfl

theorem mem_lang_descend : ∀ (w : List Nat) (t : Trie), SortedTrie t →
    (w ∈ lang t ↔ ∃ k, descend t w = some (true, k))
  | [], t, _ => by simp [descend, nil_not_mem_lang]
  | [c], t, hs => by
    rw [mem_lang_cons hs]
    unfold descend
    constructor
    · rintro ⟨b, k, h, h2⟩
      rcases h2 with ⟨_, rfl⟩ | h2
      · exact ⟨k, h⟩
      · exact absurd h2 (nil_not_mem_lang k)
    · rintro ⟨k, h⟩
      exact ⟨true, k, h, .inl ⟨rfl, rfl⟩⟩
  | c :: d :: cs, t, hs => by
    rw [mem_lang_cons hs]
    cases hf : find t c with
    | none => simp [descend, hf]
    | some bk =>
      obtain ⟨b, k⟩ := bk
      simp only [descend, hf]
      rw [← mem_lang_descend (d :: cs) k (find_sorted hs hf)]
      constructor
      · rintro ⟨b', k', h, h2⟩
        injection h with h
        injection h with h1 h3
        subst h1 h3
        simpa using h2
      · intro h
        exact ⟨b, k, rfl, .inr h⟩

end Ppocr

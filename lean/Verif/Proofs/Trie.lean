import Verif.Spec.Trie
import Verif.Proofs.Utf
import Verif.Proofs.Ocr2

/-! # Lemmas for C40: building the trie -/

namespace Ppocr
open Spec

/-! ## The lexicographic order -/

theorem wordLt_irrefl : ∀ a : List Nat, wordLt a a = false
  | [] => rfl
  | a :: as => by simp [wordLt, wordLt_irrefl as]

theorem wordLt_trans : ∀ a b c : List Nat, wordLt a b = true → wordLt b c = true → wordLt a c = true
  | _, [], _, h, _ => by simp [wordLt] at h
  | _, _ :: _, [], _, h => by simp [wordLt] at h
  | [], _ :: _, _ :: _, _, _ => rfl
  | a :: as, b :: bs, c :: cs, h1, h2 => by
    simp only [wordLt, Bool.or_eq_true, Bool.and_eq_true, decide_eq_true_eq] at h1 h2 ⊢
    rcases h1 with h1 | ⟨h1, h1'⟩ <;> rcases h2 with h2 | ⟨h2, h2'⟩
    · exact .inl (by omega)
    · exact .inl (by omega)
    · exact .inl (by omega)
    · exact .inr ⟨by omega, wordLt_trans as bs cs h1' h2'⟩

theorem wordLt_total : ∀ a b : List Nat, wordLt a b = false → wordLt b a = false → a = b
  | [], [], _, _ => rfl
  | [], _ :: _, h, _ => by simp [wordLt] at h
  | _ :: _, [], _, h => by simp [wordLt] at h
  | a :: as, b :: bs, h1, h2 => by
    simp only [wordLt, Bool.or_eq_false_iff, Bool.and_eq_false_iff, decide_eq_false_iff_not] at h1 h2
    have hab : a = b := by omega
    subst hab
    rw [wordLt_total as bs (by rcases h1.2 with h | h; exact absurd rfl h; exact h)
      (by rcases h2.2 with h | h; exact absurd rfl h; exact h)]

theorem wordLt_strictWeak : StrictWeak wordLt where
  irrefl := wordLt_irrefl
  trans := wordLt_trans
  incomp a b c h1 h2 h3 h4 := by
    have := wordLt_total a b h1 h2
    have := wordLt_total b c h3 h4
    subst_vars
    exact ⟨wordLt_irrefl _, wordLt_irrefl _⟩

/-- Strictly increasing words. -/
abbrev Increasing (l : List (List Nat)) : Prop := l.Pairwise fun a b => wordLt a b = true

theorem uniqueFrom_lex : ∀ (l : List (List Nat)) (a : List Nat),
    (a :: l).Pairwise (fun a b => wordLt b a = false) →
    ∃ r, uniqueFrom (fun a b => .ok (decide (a = b))) a l = .ok (a :: r) ∧ Increasing (a :: r) ∧
      ∀ w, w ∈ a :: r ↔ w ∈ a :: l
  | [], a, _ => ⟨[], rfl, by simp, fun w => Iff.rfl⟩
  | b :: l, a, h => by
    unfold uniqueFrom
    rw [Res.ok_bind]
    rw [List.pairwise_cons, List.pairwise_cons] at h
    by_cases e : a = b
    · subst e
      rw [if_pos (by simp)]
      obtain ⟨r, e1, e2, e3⟩ := uniqueFrom_lex l a (by
        rw [List.pairwise_cons]; exact ⟨h.2.1, h.2.2⟩)
      exact ⟨r, e1, e2, fun w => by rw [e3]; simp⟩
    · rw [if_neg (by simpa using e)]
      obtain ⟨r, e1, e2, e3⟩ := uniqueFrom_lex l b (by
        rw [List.pairwise_cons]; exact ⟨h.2.1, h.2.2⟩)
      rw [e1, Res.ok_bind]
      refine ⟨b :: r, rfl, ?_, fun w => by rw [List.mem_cons, e3, List.mem_cons (b := a)]⟩
      have hab : wordLt a b = true := by
        cases hh : wordLt a b with
        | true => rfl
        | false => exact absurd (wordLt_total a b hh (h.1 b (by simp))) e
      rw [Increasing, List.pairwise_cons]
      refine ⟨?_, e2⟩
      intro w hw
      rcases List.mem_cons.1 hw with rfl | hw'
      · exact hab
      · exact wordLt_trans a b w hab ((List.pairwise_cons.1 e2).1 w hw')

theorem uniqueBy_lex (l : List (List Nat)) (h : l.Pairwise fun a b => wordLt b a = false) :
    ∃ r, uniqueBy (fun a b => .ok (decide (a = b))) l = .ok r ∧ Increasing r ∧ ∀ w, w ∈ r ↔ w ∈ l := by
  cases l with
  | nil => exact ⟨[], rfl, by simp, fun w => Iff.rfl⟩
  | cons a l =>
    obtain ⟨r, e1, e2, e3⟩ := uniqueFrom_lex l a h
    exact ⟨a :: r, e1, e2, e3⟩

/-! ## Inserting -/

/-- What `insert_after` needs of a range at some depth: the rests of the words are not empty and strictly
increasing. -/
structure Ready (ws : List (List Nat)) (depth : Nat) : Prop where
  long : ∀ w ∈ ws, depth < w.length
  incr : Increasing (ws.map (List.drop depth))

theorem Ready.sub {ws vs : List (List Nat)} {depth : Nat} (h : Ready ws depth) (hs : vs.Sublist ws) :
    Ready vs depth :=
  ⟨fun w hw => h.long w (hs.subset hw), h.incr.sublist (hs.map _)⟩

/-- The letter at a depth. -/
def at' (depth : Nat) (w : List Nat) : Nat := w.getD depth 0

theorem drop_at {depth : Nat} {w : List Nat} (h : depth < w.length) :
    w.drop depth = at' depth w :: w.drop (depth + 1) := by
  rw [List.drop_eq_getElem_cons h]
  unfold at'
  rw [List.getD_eq_getElem?_getD, List.getElem?_eq_getElem h]
  rfl

theorem Ready.mono {ws : List (List Nat)} {depth : Nat} (h : Ready ws depth) :
    ws.Pairwise fun a b => at' depth a ≤ at' depth b := by
  have := h.incr
  rw [Increasing, List.pairwise_map] at this
  refine List.Pairwise.imp_of_mem ?_ this
  intro a b ha hb hab
  rw [drop_at (h.long a ha), drop_at (h.long b hb)] at hab
  simp only [wordLt, Bool.or_eq_true, Bool.and_eq_true, decide_eq_true_eq] at hab
  omega

/-- The measure that decreases. -/
def insMeasure (ws : List (List Nat)) (depth : Nat) : Nat := (ws.map fun w => w.length - depth + 1).sum

theorem insMeasure_append (a b : List (List Nat)) (depth : Nat) :
    insMeasure (a ++ b) depth = insMeasure a depth + insMeasure b depth := by
  simp [insMeasure]

theorem insMeasure_succ {ws : List (List Nat)} {depth : Nat} (h : ∀ w ∈ ws, depth < w.length) :
    insMeasure ws (depth + 1) + ws.length = insMeasure ws depth := by
  induction ws with
  | nil => rfl
  | cons w ws ih =>
    have h1 := h w (by simp)
    have h2 := ih fun v hv => h v (by simp [hv])
    simp only [insMeasure, List.map_cons, List.sum_cons, List.length_cons] at *
    omega

theorem upper_ok {w : List Nat} {ws : List (List Nat)} {depth : Nat} (h : Ready (w :: ws) depth) :
    ∃ k, partitionPoint (fun k => do
        let s ← rd (w :: ws) k
        return !aboveAt depth (at' depth w) s) (ws.length + 2) 0 (ws.length + 1) = .ok k ∧
      0 < k ∧ k ≤ ws.length + 1 ∧
      (∀ v ∈ (w :: ws).take k, at' depth v = at' depth w) ∧
      (∀ v ∈ (w :: ws).drop k, at' depth w < at' depth v) := by
  have hm := h.mono
  obtain ⟨k, e, _, h2, h3, h4⟩ := partitionPoint_ok (fun k => do
        let s ← rd (w :: ws) k
        return !aboveAt depth (at' depth w) s) (fun k => !decide (at' depth w < at' depth ((w :: ws).getD k [])))
      (ws.length + 2) 0 (ws.length + 1) (by omega)
      (by
        intro k _ hk
        have hk' : k < (w :: ws).length := by simp; omega
        rw [rd_of_lt hk', Res.ok_bind]
        have hl := h.long _ (List.getElem_mem hk')
        have e2 : at' depth (w :: ws)[k] = (w :: ws)[k][depth] := by
          unfold at'
          rw [List.getD_eq_getElem?_getD, List.getElem?_eq_getElem hl]
          rfl
        unfold aboveAt
        rw [List.getElem?_eq_getElem hl]
        simp only [List.getD_eq_getElem?_getD, List.getElem?_eq_getElem hk', Option.getD_some, e2]
        rfl)
      (by
        intro i j _ hij hj hq
        have hj' : j < (w :: ws).length := by simp; omega
        have hi' : i < (w :: ws).length := by omega
        simp only [Bool.not_eq_true', decide_eq_false_iff_not, List.getD_eq_getElem?_getD,
          List.getElem?_eq_getElem hj', List.getElem?_eq_getElem hi', Option.getD_some] at hq ⊢
        rcases Nat.lt_or_ge i j with hlt | hge
        · have := List.pairwise_iff_getElem.1 hm i j hi' hj' hlt
          omega
        · have : i = j := by omega
          subst this
          exact hq)
  have hk0 : 0 < k := by
    rcases Nat.eq_zero_or_pos k with h0 | h0
    · have := h4 0 (by omega) (by omega)
      simp at this
    · exact h0
  refine ⟨k, e, hk0, by omega, ?_, ?_⟩
  · intro v hv
    obtain ⟨i, hi, ev⟩ := List.getElem_of_mem hv
    rw [List.length_take] at hi
    have hi' : i < (w :: ws).length := by omega
    rw [List.getElem_take] at ev
    have := h3 i (by omega) (by omega)
    simp only [Bool.not_eq_true', decide_eq_false_iff_not, List.getD_eq_getElem?_getD,
      List.getElem?_eq_getElem hi', Option.getD_some, ev] at this
    have h5 : at' depth w ≤ at' depth v := by
      rcases Nat.eq_zero_or_pos i with h0 | h0
      · subst h0
        simp at ev
        rw [ev]
        exact Nat.le_refl _
      · have := List.pairwise_iff_getElem.1 hm 0 i (by simp) hi' h0
        rw [ev] at this
        simpa using this
    omega
  · intro v hv
    obtain ⟨i, hi, ev⟩ := List.getElem_of_mem hv
    rw [List.length_drop] at hi
    rw [List.getElem_drop] at ev
    have hi' : k + i < (w :: ws).length := by omega
    have := h4 (k + i) (by omega) (by simp at hi'; omega)
    simp only [Bool.not_eq_false', decide_eq_true_eq, List.getD_eq_getElem?_getD,
      List.getElem?_eq_getElem hi', Option.getD_some, ev] at this
    exact this

/-- The rests below the first letter: strictly increasing, and not empty once the word that ends here has
been removed. -/
theorem group_ready {w : List Nat} {g : List (List Nat)} {depth : Nat} (h : Ready (w :: g) depth)
    (hg : ∀ v ∈ g, at' depth v = at' depth w) :
    ∃ g', groupTail (decide (depth + 1 = w.length)) (w :: g) = .ok g' ∧ (g' = w :: g ∨ g' = g) ∧
      Ready g' (depth + 1) ∧
      (w :: g).map (List.drop depth) = (if decide (depth + 1 = w.length) then [[at' depth w]] else []) ++
        (g'.map (List.drop (depth + 1))).map (at' depth w :: ·) := by
  have hincr : Increasing ((w :: g).map (List.drop (depth + 1))) := by
    have := h.incr
    rw [Increasing, List.pairwise_map] at this ⊢
    refine List.Pairwise.imp_of_mem ?_ this
    intro a b ha hb hab
    have ea : at' depth a = at' depth w := by
      rcases List.mem_cons.1 ha with rfl | ha
      · rfl
      · exact hg a ha
    have eb : at' depth b = at' depth w := by
      rcases List.mem_cons.1 hb with rfl | hb
      · rfl
      · exact hg b hb
    rw [drop_at (h.long a ha), drop_at (h.long b hb), ea, eb] at hab
    simpa [wordLt] using hab
  have hlong : ∀ v ∈ g, depth + 1 < v.length := by
    intro v hv
    have hv' := h.long v (by simp [hv])
    rw [List.map_cons, Increasing, List.pairwise_cons] at hincr
    have := hincr.1 (v.drop (depth + 1)) (List.mem_map_of_mem hv)
    rcases Nat.lt_or_ge (depth + 1) v.length with hlt | hge
    · exact hlt
    · rw [List.drop_of_length_le hge] at this
      simp [wordLt] at this
  have hmap : ∀ l : List (List Nat), l ⊆ w :: g →
      l.map (List.drop depth) = (l.map (List.drop (depth + 1))).map (at' depth w :: ·) := by
    intro l hl
    rw [List.map_map]
    apply List.map_congr_left
    intro v hv
    have hv' := hl hv
    rw [drop_at (h.long v hv')]
    rcases List.mem_cons.1 hv' with rfl | hv'
    · rfl
    · simp [hg v hv']
  by_cases he : depth + 1 = w.length
  · refine ⟨g, by simp [groupTail, he], .inr rfl, ⟨hlong, ?_⟩, ?_⟩
    · rw [List.map_cons] at hincr
      exact (List.pairwise_cons.1 hincr).2
    · rw [if_pos (by simpa using he), List.map_cons, hmap g (by simp), drop_at (h.long w (by simp)), he,
        List.drop_length]
      rfl
  · have hw := h.long w (by simp)
    refine ⟨w :: g, by simp [groupTail, he], .inl rfl, ⟨?_, hincr⟩, ?_⟩
    · intro v hv
      rcases List.mem_cons.1 hv with rfl | hv
      · omega
      · exact hlong v hv
    · rw [if_neg (by simpa using he), hmap (w :: g) (by simp)]
      rfl

theorem insertAfter_ok : ∀ (fuel : Nat) (ws : List (List Nat)) (depth : Nat), Ready ws depth →
    insMeasure ws depth < fuel →
    ∃ t, insertAfter fuel ws depth = .ok t ∧ lang t = ws.map (List.drop depth) ∧ SortedTrie t ∧
      (∀ m ∈ t.nodes, ∃ v ∈ ws, m.x = at' depth v) ∧ t.count + ws.length ≤ insMeasure ws depth
  | 0, _, _, _, h => by omega
  | fuel + 1, [], depth, _, _ => ⟨.nil, rfl, rfl, trivial, fun m h => by simp [Trie.nodes] at h, by simp [Trie.count]⟩
  | fuel + 1, w :: ws, depth, h, hf => by
    have hw := h.long w (by simp)
    obtain ⟨k, e, hk0, hk, h1, h2⟩ := upper_ok h
    obtain ⟨k, rfl⟩ : ∃ j, k = j + 1 := ⟨k - 1, by omega⟩
    have htk : (w :: ws).take (k + 1) = w :: ws.take k := by simp
    have hsplit : insMeasure (w :: ws) depth = insMeasure (w :: ws.take k) depth +
        insMeasure ((w :: ws).drop (k + 1)) depth := by
      rw [← htk, ← insMeasure_append, List.take_append_drop]
    have hr1 : Ready (w :: ws.take k) depth := h.sub (htk ▸ List.take_sublist _ _)
    have hr2 : Ready ((w :: ws).drop (k + 1)) depth := h.sub (List.drop_sublist _ _)
    rw [htk] at h1
    obtain ⟨g', eg, hs, hg, hl⟩ := group_ready hr1 fun v hv => h1 v (by simp [hv])
    have hm1 := insMeasure_succ hr1.long
    have hsub : insMeasure g' (depth + 1) + 1 ≤ insMeasure (w :: ws.take k) (depth + 1) + g'.length := by
      rcases hs with rfl | rfl
      · simp
      · simp only [insMeasure, List.map_cons, List.sum_cons]
        omega
    have hsub2 : g'.length ≤ (ws.take k).length + 1 := by
      rcases hs with rfl | rfl <;> simp
    rw [List.length_cons] at hm1
    obtain ⟨t1, e1, l1, s1, _, c1⟩ := insertAfter_ok fuel g' (depth + 1) hg (by omega)
    obtain ⟨t2, e2, l2, s2, m2, c2⟩ := insertAfter_ok fuel ((w :: ws).drop (k + 1)) depth hr2 (by omega)
    refine ⟨.node (at' depth w) (decide (depth + 1 = w.length)) t1 t2, ?_, ?_, ⟨?_, s1, s2⟩, ?_, ?_⟩
    · have hc : rd w depth = .ok (at' depth w) := by
        rw [rd_of_lt hw]
        unfold at'
        rw [List.getD_eq_getElem?_getD, List.getElem?_eq_getElem hw]
        rfl
      unfold insertAfter
      rw [hc, Res.ok_bind, e, Res.ok_bind]
      simp only [htk]
      rw [eg, Res.ok_bind, e1, Res.ok_bind, e2, Res.ok_bind]
      rfl
    · rw [lang, l1, l2, ← hl, ← List.map_append, ← htk, List.take_append_drop]
    · intro m hm
      obtain ⟨v, hv, ev⟩ := m2 m hm
      rw [ev]
      exact h2 v hv
    · intro m hm
      rcases List.mem_cons.1 hm with rfl | hm
      · exact ⟨w, by simp, rfl⟩
      · obtain ⟨v, hv, ev⟩ := m2 m hm
        exact ⟨v, List.mem_of_mem_drop hv, ev⟩
    · have hlen : (w :: ws).length = (ws.take k).length + 1 + ((w :: ws).drop (k + 1)).length := by
        rw [← List.length_cons (a := w), ← htk, ← List.length_append, List.take_append_drop]
      simp only [Trie.count]
      omega

theorem insMeasure_zero : ∀ ws : List (List Nat), insMeasure ws 0 = (ws.map List.length).sum + ws.length
  | [] => rfl
  | w :: ws => by
    have := insMeasure_zero ws
    simp only [insMeasure, List.map_cons, List.sum_cons, List.length_cons, Nat.sub_zero] at *
    omega

theorem trieOf_ok {ws : List (List Nat)} (hne : ∀ w ∈ ws, w ≠ []) (hi : Increasing ws) :
    ∃ t, trieOf ws = .ok t ∧ lang t = ws ∧ SortedTrie t ∧
      t.count ≤ (ws.map List.length).sum := by
  have e0 : ws.map (List.drop 0) = ws :=
    (List.map_congr_left (g := id) fun a _ => List.drop_zero).trans (List.map_id ws)
  obtain ⟨t, e, l, s, _, hc⟩ := insertAfter_ok ((ws.map fun w => w.length + 1).sum + 1) ws 0
    ⟨fun w hw => List.length_pos_iff.2 (hne w hw), e0.symm ▸ hi⟩ (by simp [insMeasure])
  refine ⟨t, e, l.trans e0, s, ?_⟩
  have := insMeasure_zero ws
  omega

end Ppocr

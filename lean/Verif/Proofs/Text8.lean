import Verif.Model.Text8
import Verif.Spec.Text8
import Verif.Proofs.DatasIO
import Verif.Proofs.Normalize

/-! # Lemmas about the tables of `extract_text8` -/

namespace Ppocr
open Spec

/-! ## Rows -/

theorem rowEq_ok {i j : Nat} : ∀ {ts : List Table}, HasRows ts i j → rowEq i j ts = .ok (decide (row ts i = row ts j)) := by
  intro ts
  induction ts with
  | nil => intro _; simp [rowEq, row]
  | cons t ts ih =>
    intro h
    have h0 := h t (by simp)
    have h1 := ih (fun u hu => h u (by simp [hu]))
    rw [rowEq, rd_of_lt h0.1, Res.ok_bind, rd_of_lt h0.2, Res.ok_bind]
    have e1 : t.vals[i]? = some t.vals[i] := List.getElem?_eq_getElem h0.1
    have e2 : t.vals[j]? = some t.vals[j] := List.getElem?_eq_getElem h0.2
    by_cases he : t.vals[i] = t.vals[j]
    · rw [if_pos he, h1]
      congr 1
      apply decide_eq_decide.2
      simp only [row, List.map_cons, e1, e2, he, List.cons.injEq, true_and]
    · rw [if_neg he]
      have : ¬ row (t :: ts) i = row (t :: ts) j := by
        simp only [row, List.map_cons, e1, e2, List.cons.injEq, Option.some.injEq]
        exact fun h => he h.1
      rw [decide_eq_false this]
      rfl

/-- The positions, counted from `k`, of the elements that do not satisfy `p`. -/
def unlike (p : Nat → Bool) : List Nat → Nat → List Nat
  | [], _ => []
  | j :: js, k => if p j then unlike p js (k + 1) else k :: unlike p js (k + 1)

theorem unlike_length (p : Nat → Bool) : ∀ (l : List Nat) (k : Nat), (unlike p l k).length = l.countP fun j => !p j := by
  intro l
  induction l with
  | nil => intro k; rfl
  | cons j js ih =>
    intro k
    rw [unlike, List.countP_cons]
    cases h : p j <;> simp [ih]

theorem unlike_bounds (p : Nat → Bool) : ∀ (l : List Nat) (k x : Nat), x ∈ unlike p l k → k ≤ x ∧ x < k + l.length := by
  intro l
  induction l with
  | nil => intro k x h; simp [unlike] at h
  | cons j js ih =>
    intro k x h
    rw [unlike] at h
    simp only [List.length_cons]
    cases hp : p j with
    | true => rw [hp] at h; have := ih _ _ h; omega
    | false =>
      rw [hp] at h
      simp only [Bool.false_eq_true, if_false, List.mem_cons] at h
      rcases h with h | h
      · omega
      · have := ih _ _ h; omega

theorem unlike_sorted (p : Nat → Bool) : ∀ (l : List Nat) (k : Nat), (unlike p l k).Pairwise (· < ·) := by
  intro l
  induction l with
  | nil => intro k; simp [unlike]
  | cons j js ih =>
    intro k
    rw [unlike]
    cases hp : p j with
    | true => exact ih _
    | false =>
      simp only [Bool.false_eq_true, if_false]
      refine List.Pairwise.cons ?_ (ih _)
      intro x hx
      have := unlike_bounds p _ _ _ hx
      omega

/-- Up to the first element that satisfies `p` all positions are listed. -/
theorem unlike_split (p : Nat → Bool) : ∀ (l : List Nat) (k : Nat),
    unlike p l k = List.range' k (l.findIdx p) ++ unlike p (l.drop (l.findIdx p)) (k + l.findIdx p) := by
  intro l
  induction l with
  | nil => intro k; simp [unlike]
  | cons j js ih =>
    intro k
    rw [List.findIdx_cons]
    cases hp : p j with
    | true => simp [List.range'_zero]
    | false =>
      simp only [cond_false]
      rw [unlike, hp]
      simp only [Bool.false_eq_true, if_false]
      rw [ih (k + 1), List.range'_succ, List.drop_succ_cons, List.cons_append, Nat.add_right_comm, Nat.add_assoc]

theorem unlike_head (p : Nat → Bool) (j : Nat) (js : List Nat) (k : Nat) (h : p j = true) :
    unlike p (j :: js) k = unlike p js (k + 1) := by rw [unlike, if_pos h]

theorem unlike_congr {p q : Nat → Bool} : ∀ {l : List Nat} {k : Nat}, (∀ j ∈ l, p j = q j) → unlike p l k = unlike q l k := by
  intro l
  induction l with
  | nil => intro k _; rfl
  | cons j js ih =>
    intro k h
    rw [unlike, unlike, h j (by simp), ih (fun x hx => h x (by simp [hx]))]

theorem findRow_ok {d : Datas} {i : Nat} : ∀ {js : List Nat}, (∀ j ∈ js, HasRows d.tables j i) →
    findRow d i js = .ok (js.findIdx fun j => decide (row d.tables j = row d.tables i)) := by
  intro js
  induction js with
  | nil => intro _; rfl
  | cons j js ih =>
    intro h
    rw [findRow, rowEq_ok (h j (by simp)), Res.ok_bind, List.findIdx_cons]
    by_cases he : row d.tables j = row d.tables i
    · simp [he, Res.pure_eq]
    · rw [decide_eq_false he, ih (fun x hx => h x (by simp [hx]))]
      rfl

/-! ## The merging loops -/

theorem uniqueFrom_words : ∀ (l : Words) (a : List Nat), ∃ r, uniqueFrom (fun a b => .ok (decide (a = b))) a l = .ok r ∧ r ≠ [] := by
  intro l
  induction l with
  | nil => intro a; exact ⟨[a], rfl, by simp⟩
  | cons b l ih =>
    intro a
    rw [uniqueFrom, Res.ok_bind]
    by_cases h : a = b
    · rw [if_pos (by simpa using h)]; exact ih a
    · rw [if_neg (by simpa using h)]
      obtain ⟨r, e, _⟩ := ih b
      exact ⟨a :: r, by rw [e]; rfl, by simp⟩

theorem uniqueBy_words (l : Words) : ∃ r, uniqueBy (fun a b => .ok (decide (a = b))) l = .ok r ∧ (r = [] ↔ l = []) := by
  cases l with
  | nil => exact ⟨[], rfl, by simp⟩
  | cons a l =>
    obtain ⟨r, e, h⟩ := uniqueFrom_words l a
    exact ⟨r, e, by simp [h]⟩

theorem setUnion_ne (mv : List Nat → List Nat) (l m : Words) :
    (l ≠ [] → (setUnion mv l m).1 ≠ []) ∧ (setUnion mv l m).2.length = m.length := by
  fun_induction setUnion mv l m with
  | case1 => simp
  | case2 => simp
  | case3 a l b m h r ih => exact ⟨by simp, ih.2⟩
  | case4 a l b m h h' r ih => exact ⟨by simp, by simpa using ih.2⟩
  | case5 a l b m h h' r ih => exact ⟨by simp, by simpa using ih.2⟩

/-- What the merging keeps of the glyphs: their number, and that they have a word. -/
structure Kept (ws vs : List Words) : Prop where
  len : vs.length = ws.length
  ne : ∀ i : Nat, ws[i]? ≠ some [] → vs[i]? ≠ some []

theorem mergeAt_ok {mv : List Nat → List Nat} {idx : List Nat} {k : Nat} {m : Merge} (hk : 0 < k) (hk2 : k < idx.length)
    (hi : ∀ x ∈ idx, x < m.views.length) :
    ∃ vs, mergeAt mv idx k m = .ok ⟨vs, m.dups ++ [k]⟩ ∧ Kept m.views vs := by
  have ha : idx[k] < m.views.length := hi _ (List.getElem_mem _)
  have hb : idx[k - 1] < m.views.length := hi _ (List.getElem_mem _)
  unfold mergeAt
  rw [rd_of_lt hk2, Res.ok_bind, rd_of_lt (show k - 1 < idx.length by omega), Res.ok_bind, rd_of_lt ha, Res.ok_bind,
    rd_of_lt hb, Res.ok_bind]
  obtain ⟨v, ev, hv⟩ := uniqueBy_words (setUnion mv m.views[idx[k]] m.views[idx[k - 1]]).1
  have hu := setUnion_ne mv m.views[idx[k]] m.views[idx[k - 1]]
  refine ⟨(m.views.set idx[k - 1] (setUnion mv m.views[idx[k]] m.views[idx[k - 1]]).2).set idx[k] v, ?_, by simp, ?_⟩
  · simp only []
    rw [ev]
    rfl
  intro i hne
  rw [List.getElem?_set]
  by_cases h1 : idx[k] = i
  · rw [if_pos h1]
    have : m.views[idx[k]] ≠ [] := by
      intro h0
      apply hne
      rw [← h1, List.getElem?_eq_getElem ha, h0]
    simp only [List.length_set, ha, if_true, ne_eq, Option.some.injEq]
    exact fun h0 => hu.1 this (hv.1 h0)
  · rw [if_neg h1, List.getElem?_set]
    by_cases h2 : idx[k - 1] = i
    · rw [if_pos h2]
      simp only [hb, if_true, ne_eq, Option.some.injEq]
      intro h0
      apply hne
      rw [← h2, List.getElem?_eq_getElem hb]
      have := hu.2
      rw [h0] at this
      rw [List.eq_nil_of_length_eq_zero this.symm]
    · rw [if_neg h2]; exact hne

theorem mergeRun_ok {mv : List Nat → List Nat} {idx : List Nat} : ∀ (n k : Nat) (m : Merge), 0 < k → k + n ≤ idx.length →
    (∀ x ∈ idx, x < m.views.length) →
    ∃ vs, mergeRun mv idx n k m = .ok ⟨vs, m.dups ++ List.range' k n⟩ ∧ Kept m.views vs ∧ (n = 0 → vs = m.views) := by
  intro n
  induction n with
  | zero => intro k m _ _ _; exact ⟨m.views, by simp [mergeRun], ⟨rfl, fun _ h => h⟩, fun _ => rfl⟩
  | succ n ih =>
    intro k m hk hn hi
    obtain ⟨v1, e1, k1⟩ := mergeAt_ok (mv := mv) hk (show k < idx.length by omega) hi
    obtain ⟨v2, e2, k2, _⟩ := ih (k + 1) ⟨v1, m.dups ++ [k]⟩ (by omega) (by omega) (by rw [k1.len]; exact hi)
    refine ⟨v2, ?_, ⟨k2.len.trans k1.len, fun i h => k2.ne i (k1.ne i h)⟩, by omega⟩
    rw [mergeRun, e1, Res.ok_bind, e2, List.range'_succ]
    simp

theorem mergeFrom_ok {mv : List Nat → List Nat} {d : Datas} {idx : List Nat} (hr : ∀ i ∈ idx, ∀ j ∈ idx, HasRows d.tables i j) :
    ∀ (fuel first : Nat) (m : Merge) (i : Nat), idx.length < fuel + first → idx[first]? = some i →
    (∀ x ∈ idx, x < m.views.length) →
    ∃ vs, mergeFrom mv d idx fuel first m = .ok ⟨vs, m.dups ++
      unlike (fun j => decide (row d.tables j = row d.tables i)) (idx.drop (first + 1)) (first + 1)⟩ ∧ Kept m.views vs ∧
      (unlike (fun j => decide (row d.tables j = row d.tables i)) (idx.drop (first + 1)) (first + 1) = [] → vs = m.views) := by
  intro fuel
  induction fuel with
  | zero =>
    intro first m i h1 h2 _
    rw [List.getElem?_eq_none (by omega)] at h2
    simp at h2
  | succ fuel ih =>
    intro first m i h1 h2 hi
    have hlt : first < idx.length := by
      apply Classical.byContradiction
      intro h
      rw [List.getElem?_eq_none (by omega)] at h2
      simp at h2
    have him : i ∈ idx := List.mem_of_getElem? h2
    rw [mergeFrom, if_neg (by omega), rd_of_getElem? h2, Res.ok_bind,
      findRow_ok (fun j hj => hr j (List.mem_of_mem_drop hj) i him), Res.ok_bind]
    generalize hn : (idx.drop (first + 1)).findIdx (fun j => decide (row d.tables j = row d.tables i)) = n
    have hle : n ≤ idx.length - (first + 1) := by
      rw [← hn, ← List.length_drop]; exact List.findIdx_le_length
    obtain ⟨v1, e1, k1, u1⟩ := mergeRun_ok (mv := mv) n (first + 1) m (by omega) (by omega) hi
    rw [e1, Res.ok_bind, unlike_split, hn, List.drop_drop]
    by_cases he : first + 1 + n = idx.length
    · refine ⟨v1, ?_, k1, fun h => u1 (by simpa using (List.append_eq_nil_iff.1 h).1)⟩
      rw [he, List.drop_length, unlike, List.append_nil]
      cases fuel with
      | zero => omega
      | succ f => rw [mergeFrom, if_pos rfl]
    · have hlt2 : first + 1 + n < idx.length := by omega
      have hsame : row d.tables idx[first + 1 + n] = row d.tables i := by
        have := List.findIdx_getElem (xs := idx.drop (first + 1)) (p := fun j => decide (row d.tables j = row d.tables i))
          (w := by rw [hn, List.length_drop]; omega)
        simp only [hn, List.getElem_drop, decide_eq_true_eq] at this
        exact this
      obtain ⟨v2, e2, k2, u2⟩ := ih (first + 1 + n) ⟨v1, m.dups ++ List.range' (first + 1) n⟩ idx[first + 1 + n] (by omega)
        (List.getElem?_eq_getElem hlt2) (by rw [k1.len]; exact hi)
      rw [List.drop_eq_getElem_cons hlt2, unlike_head _ _ _ _ (by simpa using hsame)]
      rw [hsame] at e2 u2
      refine ⟨v2, ?_, ⟨k2.len.trans k1.len, fun i h => k2.ne i (k1.ne i h)⟩, ?_⟩
      · rw [e2, List.append_assoc]
      · intro h
        have h' := List.append_eq_nil_iff.1 h
        exact (u2 h'.2).trans (u1 (by simpa using h'.1))

/-! ## Taking the duplicates out -/

theorem skipDup_ok {dup : List Nat} {p b : Nat} (hb : dup[dup.length - 1]? = some b) (hp : p ≤ b) : ∀ (fuel f : Nat),
    f < dup.length → dup.length < fuel + f → ∃ f', skipDup dup p fuel f = .ok f' ∧ f' < dup.length := by
  intro fuel
  induction fuel with
  | zero => intro f h1 h2; omega
  | succ fuel ih =>
    intro f h1 h2
    rw [skipDup, rd_of_lt h1, Res.ok_bind]
    by_cases hx : dup[f] < p
    · rw [if_pos hx]
      apply ih
      · apply Classical.byContradiction
        intro h
        have : f = dup.length - 1 := by omega
        rw [← this, List.getElem?_eq_getElem h1, Option.some.injEq] at hb
        omega
      · omega
    · rw [if_neg hx]; exact ⟨f, rfl, h1⟩

theorem wrAt_ok {α : Type} {l : List α} {i : Nat} {x : α} (h : i < l.length) : wrAt l i x = .ok (l.set i x) := if_pos h

theorem copyKept_ok {dup : List Nat} {b : Nat} (hb : dup[dup.length - 1]? = some b) : ∀ (n p f out : Nat) (idx : List Nat),
    f < dup.length → p + n ≤ b → p + n ≤ idx.length → out ≤ p →
    ∃ out' idx', copyKept dup n p f out idx = .ok (out', idx') ∧ out' ≤ out + n ∧ idx'.length = idx.length ∧
      (∀ q, out' ≤ q → idx'[q]? = idx[q]?) ∧ ∀ x ∈ idx', x ∈ idx := by
  intro n
  induction n with
  | zero => intro p f out idx _ _ _ _; exact ⟨out, idx, rfl, by omega, rfl, fun _ _ => rfl, fun _ h => h⟩
  | succ n ih =>
    intro p f out idx hf h1 h2 h3
    obtain ⟨f', ef, hf'⟩ := skipDup_ok hb (show p ≤ b by omega) (dup.length + 1) f hf (by omega)
    rw [copyKept, rd_of_lt hf, Res.ok_bind, ef, Res.ok_bind]
    by_cases hx : dup[f] = p
    · rw [if_neg (by simpa using hx)]
      obtain ⟨o, i', e, a1, a2, a3, a4⟩ := ih (p + 1) f' out idx hf' (by omega) (by omega) (by omega)
      exact ⟨o, i', e, by omega, a2, a3, a4⟩
    · have hp : p < idx.length := by omega
      rw [if_pos hx, rd_of_lt hp, Res.ok_bind, wrAt_ok (show out < idx.length by omega), Res.ok_bind]
      obtain ⟨o, i', e, a1, a2, a3, a4⟩ := ih (p + 1) f' (out + 1) (idx.set out idx[p]) hf' (by omega)
        (by rw [List.length_set]; omega) (by omega)
      refine ⟨o, i', e, by omega, by rw [a2, List.length_set], ?_, ?_⟩
      · intro q hq
        rw [a3 q hq]
        -- out + 1 ≤ o
        have ho : out < o := by
          clear a3 a4
          exact copyKept_ge e
        exact List.getElem?_set_ne (by omega)
      · intro x hx
        have := a4 x hx
        rcases List.mem_or_eq_of_mem_set this with h | h
        · exact h
        · rw [h]; exact List.getElem_mem _
where
  copyKept_ge {dup : List Nat} {n p f out : Nat} {idx : List Nat} {o : Nat} {i' : List Nat}
      (h : copyKept dup n p f (out + 1) idx = .ok (o, i')) : out < o := by
    have : ∀ (n p f out : Nat) (idx : List Nat), copyKept dup n p f out idx = .ok (o, i') → out ≤ o := by
      intro n
      induction n with
      | zero =>
        intro p f out idx h
        simp only [copyKept, Res.ok.injEq, Prod.mk.injEq] at h
        omega
      | succ n ih =>
        intro p f out idx h
        simp only [copyKept, Res.bind_eq_ok] at h
        obtain ⟨x, _, f', _, h⟩ := h
        split at h
        · simp only [Res.bind_eq_ok] at h
          obtain ⟨v, _, i2, _, h⟩ := h
          have := ih _ _ _ _ h
          omega
        · exact ih _ _ _ _ h
    have := this n p f (out + 1) idx h
    omega

/-- With three duplicates or more, at least one position is left out. -/
theorem copyKept_loses {a c b : Nat} {l : List Nat} (hb : (a :: c :: l)[(a :: c :: l).length - 1]? = some b) :
    ∀ (n p out : Nat) (idx : List Nat), p ≤ c → c < p + n → p + n ≤ b → p + n ≤ idx.length → out ≤ p →
    ∃ out' idx', copyKept (a :: c :: l) n p 1 out idx = .ok (out', idx') ∧ out' < out + n ∧ idx'.length = idx.length ∧
      (∀ q, out' ≤ q → idx'[q]? = idx[q]?) ∧ ∀ x ∈ idx', x ∈ idx := by
  intro n
  induction n with
  | zero => intro p out idx h1 h2; omega
  | succ n ih =>
    intro p out idx h1 h2 h3 h4 h5
    have es : skipDup (a :: c :: l) p ((a :: c :: l).length + 1) 1 = .ok 1 := by
      rw [skipDup, rd_of_getElem? (a := c) (by simp), Res.ok_bind, if_neg (by omega)]; rfl
    by_cases hc : c = p
    · rw [copyKept, rd_of_getElem? (a := c) (by simp), Res.ok_bind, es, Res.ok_bind, if_neg (by simpa using hc)]
      obtain ⟨o, i', e, a1, a2, a3, a4⟩ := copyKept_ok hb n (p + 1) 1 out idx (by simp) (by omega) (by omega) (by omega)
      exact ⟨o, i', e, by omega, a2, a3, a4⟩
    · have hp : p < idx.length := by omega
      rw [copyKept, rd_of_getElem? (a := c) (by simp), Res.ok_bind, es, Res.ok_bind, if_pos hc, rd_of_lt hp, Res.ok_bind,
        wrAt_ok (show out < idx.length by omega), Res.ok_bind]
      obtain ⟨o, i', e, a1, a2, a3, a4⟩ := ih (p + 1) (out + 1) (idx.set out idx[p]) (by omega) (by omega) (by omega)
        (by rw [List.length_set]; omega) (by omega)
      refine ⟨o, i', e, by omega, by rw [a2, List.length_set], ?_, ?_⟩
      · intro q hq
        rw [a3 q hq]
        have ho : out < o := copyKept_ok.copyKept_ge e
        exact List.getElem?_set_ne (by omega)
      · intro x hx
        rcases List.mem_or_eq_of_mem_set (a4 x hx) with h | h
        · exact h
        · rw [h]; exact List.getElem_mem _

/-- With two of them nothing moves. -/
theorem copyKept_two {a b : Nat} : ∀ (n p : Nat) (idx : List Nat), p + n ≤ b → p + n ≤ idx.length →
    copyKept [a, b] n p 1 p idx = .ok (p + n, idx) := by
  intro n
  induction n with
  | zero => intro p idx _ _; rfl
  | succ n ih =>
    intro p idx h1 h2
    have hp : p < idx.length := by omega
    rw [copyKept, rd_of_getElem? (a := b) (by simp), Res.ok_bind, skipDup, rd_of_getElem? (a := b) (by simp), Res.ok_bind,
      if_neg (by omega), Res.pure_eq, Res.ok_bind, if_pos (by omega), rd_of_lt hp, Res.ok_bind, wrAt_ok hp, Res.ok_bind,
      List.set_getElem_self, ih (p + 1) idx (by omega) (by omega)]
    congr 2
    omega

theorem wrFrom_same : ∀ (vs : List Nat) (k : Nat) (idx : List Nat), (∀ j < vs.length, vs[j]? = idx[k + j]?) →
    wrFrom vs k idx = .ok idx := by
  intro vs
  induction vs with
  | nil => intro k idx _; rfl
  | cons v vs ih =>
    intro k idx h
    have h0 := h 0 (by simp)
    simp only [List.getElem?_cons_zero, Nat.add_zero] at h0
    obtain ⟨hk, e⟩ := List.getElem?_eq_some_iff.1 h0.symm
    rw [wrFrom, wrAt_ok hk, Res.ok_bind, ← e, List.set_getElem_self]
    apply ih
    intro j hj
    have := h (j + 1) (by simp; omega)
    rw [List.getElem?_cons_succ] at this
    rw [this]
    congr 1; omega

theorem wrFrom_ub : ∀ (vs : List Nat) (k : Nat) (idx : List Nat), k ≤ idx.length → idx.length < k + vs.length →
    wrFrom vs k idx = .ub := by
  intro vs
  induction vs with
  | nil => intro k idx h1 h2; simp at h2; omega
  | cons v vs ih =>
    intro k idx h1 h2
    rw [wrFrom]
    by_cases hk : k < idx.length
    · rw [wrAt_ok hk, Res.ok_bind]
      apply ih
      · rw [List.length_set]; omega
      · rw [List.length_set]; simp at h2; omega
    · rw [wrAt, if_neg hk]; rfl

theorem wrFrom_ok : ∀ (vs : List Nat) (k : Nat) (idx : List Nat), k + vs.length ≤ idx.length →
    ∃ idx', wrFrom vs k idx = .ok idx' ∧ idx'.length = idx.length ∧ (∀ q < k, idx'[q]? = idx[q]?) ∧
      (∀ v ws, vs = v :: ws → idx'[k]? = some v) ∧ ∀ x ∈ idx', x ∈ idx ∨ x ∈ vs := by
  intro vs
  induction vs with
  | nil => intro k idx _; exact ⟨idx, rfl, rfl, fun _ _ => rfl, by simp, fun _ h => .inl h⟩
  | cons v vs ih =>
    intro k idx h
    simp only [List.length_cons] at h
    obtain ⟨i', e, a1, a2, a3, a4⟩ := ih (k + 1) (idx.set k v) (by rw [List.length_set]; omega)
    refine ⟨i', by rw [wrFrom, wrAt_ok (by omega), Res.ok_bind, e], by rw [a1, List.length_set], ?_, ?_, ?_⟩
    · intro q hq
      rw [a2 q (by omega)]
      exact List.getElem?_set_ne (by omega)
    · intro w ws hw
      rw [List.cons.injEq] at hw
      rw [a2 k (by omega), List.getElem?_set_self (by omega), hw.1]
    · intro x hx
      rcases a4 x hx with h | h
      · rcases List.mem_or_eq_of_mem_set h with h | h
        · exact .inl h
        · exact .inr (by simp [h])
      · exact .inr (by simp [h])

theorem dropDups_one (a : Nat) (idx : List Nat) : dropDups [a] idx = .ub := by
  simp [dropDups]

theorem dropDups_two {a b : Nat} {idx : List Nat} (h1 : a < b) (h2 : b < idx.length) : dropDups [a, b] idx = .ok idx := by
  simp only [dropDups, List.head?_cons, List.getLast?_cons_cons, List.getLast?_singleton]
  rw [if_neg (by omega), copyKept_two _ _ _ (by omega) (by omega), Res.ok_bind]
  simp only []
  rw [show a + 1 + (b - (a + 1)) = b by omega, if_neg (by omega)]
  apply wrFrom_same
  intro j hj
  simp only [List.length_drop, List.length_take] at hj
  rw [List.getElem?_drop, List.getElem?_take_of_lt (by omega)]

/-- Three duplicates or more: memory behind `indexes` is written, or an index comes twice. -/
theorem dropDups_more {a c e : Nat} {l idx : List Nat} (hs : (a :: c :: e :: l).Pairwise (· < ·))
    (hl : ∀ x ∈ a :: c :: e :: l, x < idx.length) :
    dropDups (a :: c :: e :: l) idx = .ub ∨ ∃ idx', dropDups (a :: c :: e :: l) idx = .ok idx' ∧ idx'.length = idx.length ∧
      (∀ x ∈ idx', x ∈ idx) ∧ ¬ idx'.Nodup := by
  obtain ⟨b, hb⟩ : ∃ b, (a :: c :: e :: l).getLast? = some b := ⟨_, List.getLast?_eq_some_getLast (by simp)⟩
  have hb' : (a :: c :: e :: l)[(a :: c :: e :: l).length - 1]? = some b := by rw [← List.getLast?_eq_getElem?]; exact hb
  have hbm : b ∈ e :: l := by
    rw [List.getLast?_cons_cons, List.getLast?_cons_cons] at hb
    exact List.mem_of_getLast? hb
  have hac : a < c := List.rel_of_pairwise_cons hs (by simp)
  have hcb : c < b := List.rel_of_pairwise_cons (List.Pairwise.of_cons hs) hbm
  have hbn : b < idx.length := hl b (List.mem_cons_of_mem _ (List.mem_cons_of_mem _ hbm))
  obtain ⟨out, i1, e1, a1, a2, a3, a4⟩ := copyKept_loses hb' (b - (a + 1)) (a + 1) (a + 1) idx (by omega) (by omega) (by omega)
    (by omega) (Nat.le_refl _)
  have ho : out < b := by omega
  simp only [dropDups, List.head?_cons, hb]
  rw [if_neg (by omega), e1, Res.ok_bind]
  simp only []
  rw [if_neg (by omega)]
  have hlen : ((i1.take (idx.length - 1)).drop out).length = idx.length - 1 - out := by
    rw [List.length_drop, List.length_take, a2]; omega
  by_cases hw : b + (idx.length - 1 - out) ≤ idx.length
  · right
    obtain ⟨i2, e2, b1, b2, b3, b4⟩ := wrFrom_ok ((i1.take (idx.length - 1)).drop out) b i1 (by rw [hlen, a2]; exact hw)
    have hob : out = b - 1 := by omega
    have hget : i1[b - 1]? = some (idx[b - 1]'(by omega)) := by
      rw [a3 (b - 1) (by omega), List.getElem?_eq_getElem (by omega)]
    refine ⟨i2, e2, b1.trans a2, ?_, ?_⟩
    · intro x hx
      rcases b4 x hx with h | h
      · exact a4 x h
      · exact a4 x (List.mem_of_mem_take (List.mem_of_mem_drop h))
    · intro hnd
      have h1 : i2[b - 1]? = some (idx[b - 1]'(by omega)) := by rw [b2 (b - 1) (by omega), hget]
      have h2 : i2[b]? = some (idx[b - 1]'(by omega)) := by
        have hd : (i1.take (idx.length - 1)).drop out = (idx[b - 1]'(by omega)) :: (i1.take (idx.length - 1)).drop (out + 1) := by
          have hlt : out < (i1.take (idx.length - 1)).length := by rw [List.length_take, a2]; omega
          rw [List.drop_eq_getElem_cons hlt, List.getElem_take]
          congr 1
          subst hob
          rw [List.getElem?_eq_getElem (by rw [a2]; omega), Option.some.injEq] at hget
          exact hget
        exact b3 _ _ hd
      have := (List.getElem?_inj (by rw [b1, a2]; omega) hnd).1 (h1.trans h2.symm)
      omega
  · left
    exact wrFrom_ub _ _ _ (by rw [a2]; omega) (by rw [hlen, a2]; omega)

/-! ## Reindexing by indexes that repeat -/

theorem moveLoop_repeats {α : Type} : ∀ (is : List Nat) (k : Nat) (cont new : List (Option α)), k + is.length ≤ new.length →
    (∀ i ∈ is, i < cont.length) →
    ∃ r, moveLoop is k cont new = .ok r ∧ r.length = new.length ∧ (∀ q < k, r[q]? = new[q]?) ∧
      ((¬ is.Nodup ∨ ∃ i ∈ is, cont[i]? = some none) → none ∈ r) := by
  intro is
  induction is with
  | nil => intro k cont new _ _; exact ⟨new, rfl, rfl, fun _ _ => rfl, by simp⟩
  | cons i is ih =>
    intro k cont new h hi
    have h0 := hi i (by simp)
    simp only [List.length_cons] at h
    obtain ⟨r, e, r1, r2, r3⟩ := ih (k + 1) (cont.set i none) (new.set k cont[i]) (by rw [List.length_set]; omega)
      (by intro j hj; rw [List.length_set]; exact hi j (by simp [hj]))
    refine ⟨r, by rw [moveLoop, rd_of_lt h0, Res.ok_bind, wrAt_ok (by omega), Res.ok_bind, wrAt_ok h0, Res.ok_bind, e],
      by rw [r1, List.length_set], ?_, ?_⟩
    · intro q hq
      rw [r2 q (by omega)]
      exact List.getElem?_set_ne (by omega)
    · intro hbad
      by_cases hm : i ∈ is
      · exact r3 (.inr ⟨i, hm, by rw [List.getElem?_set_self h0]⟩)
      · rcases hbad with hb | ⟨j, hj, hn⟩
        · rw [List.nodup_cons] at hb
          exact r3 (.inl fun hnd => hb ⟨hm, hnd⟩)
        · rcases List.mem_cons.1 hj with rfl | hj
          · rw [List.getElem?_eq_getElem h0, Option.some.injEq] at hn
            have := r2 k (by omega)
            rw [List.getElem?_set_self (by omega), hn] at this
            exact List.mem_of_getElem? this
          · have hij : i ≠ j := by
              intro h
              subst h
              exact hm hj
            exact r3 (.inr ⟨j, hj, by rw [List.getElem?_set_ne hij]; exact hn⟩)

theorem reindexTables_ok {idx : List Nat} {n : Nat} (hl : idx.length = n) (hi : ∀ i ∈ idx, i < n) : ∀ (ts : List Table),
    (∀ t ∈ ts, t.vals.length = n) → ∃ cs, reindexTables idx ts = .ok cs := by
  intro ts
  induction ts with
  | nil => intro _; exact ⟨[], rfl⟩
  | cons t ts ih =>
    intro h
    have ht := h t (by simp)
    obtain ⟨r, e, _⟩ := moveLoop_repeats idx 0 (t.vals.map some) (List.replicate t.vals.length (some (.num 0)))
      (by simp; omega) (by simpa [ht] using hi)
    obtain ⟨cs, e2⟩ := ih (fun u hu => h u (by simp [hu]))
    exact ⟨r :: cs, by rw [reindexTables, reindex, e, Res.ok_bind, e2]; rfl⟩

/-! ## Words -/

theorem collectFirst_ub : ∀ (gs : List (Option Words)) (n : Nat) (m : List (List Nat × List Nat)), (none ∈ gs ∨ some [] ∈ gs) →
    collectFirst gs n m = .ub := by
  intro gs
  induction gs with
  | nil => intro n m h; simp at h
  | cons g gs ih =>
    intro n m h
    match g with
    | none => rfl
    | some [] => rfl
    | some (w :: v) =>
      rw [collectFirst]
      apply ih
      simpa using h

theorem collectFirst_ok : ∀ (gs : List (Option Words)) (n : Nat) (m : List (List Nat × List Nat)),
    (∀ g ∈ gs, ∃ w v, g = some (w :: v)) → ∃ m', collectFirst gs n m = .ok m' := by
  intro gs
  induction gs with
  | nil => intro n m _; exact ⟨m, rfl⟩
  | cons g gs ih =>
    intro n m h
    obtain ⟨w, v, rfl⟩ := h g (by simp)
    rw [collectFirst]
    exact ih _ _ (fun g hg => h g (by simp [hg]))

theorem makeByWord_ub {gs : List (Option Words)} (h : none ∈ gs ∨ some [] ∈ gs) : makeByWord gs = .ub := by
  rw [makeByWord, collectFirst_ub _ _ _ h]; rfl

theorem makeByWord_ok {gs : List (Option Words)} (h : ∀ g ∈ gs, ∃ w v, g = some (w :: v)) : ∃ t, makeByWord gs = .ok t := by
  obtain ⟨m, e⟩ := collectFirst_ok gs 0 [] h
  exact ⟨_, by rw [makeByWord, e]; rfl⟩

end Ppocr

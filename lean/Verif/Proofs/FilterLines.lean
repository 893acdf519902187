import Verif.Spec.Filter
import Verif.Proofs.Ocr2

/-! # Helper lemmas: `filter_by_lines` -/

namespace Ppocr
open Spec

/-! ### Words informations -/

theorem infosGet_ok (infos : List WordInfo) (w : Nat) (hs : InfosSorted infos) :
    infosGet infos w = .ok (lookup infos w) := by
  unfold infosGet
  obtain ⟨k, e, _, hk, h1, h2⟩ := partitionPoint_ok (fun k => do
      let e ← rd infos k
      return decide (e.word < w)) (fun k => match infos[k]? with
        | some e => decide (e.word < w)
        | none => false) (infos.length + 1) 0 infos.length (by omega) (by
      intro k _ hk
      rw [Nat.zero_add] at hk
      rw [rd_of_lt hk, Res.ok_bind, List.getElem?_eq_getElem hk]
      rfl) (by
      intro j k _ hjk hk h
      rw [Nat.zero_add] at hk
      have hj : j < infos.length := by omega
      rw [List.getElem?_eq_getElem hk] at h
      rw [List.getElem?_eq_getElem hj]
      simp only [decide_eq_true_eq] at *
      have := List.pairwise_iff_getElem.1 hs
      rcases Nat.eq_or_lt_of_le hjk with he | hl
      · subst he; exact h
      · have := this j k hj hk hl
        omega)
  rw [Nat.zero_add] at hk h2
  rw [e, Res.ok_bind]
  have hpre : ∀ e ∈ infos.take k, ¬ decide (e.word = w) = true := by
    intro e he
    obtain ⟨j, hj, rfl⟩ := List.mem_iff_getElem.1 he
    rw [List.length_take] at hj
    have hjl : j < infos.length := by omega
    have := h1 j (by omega) (by omega)
    rw [List.getElem?_eq_getElem hjl] at this
    rw [List.getElem_take]
    simp only [decide_eq_true_eq] at *
    omega
  have hfind : lookup infos w = (infos.drop k).find? fun e => decide (e.word = w) := by
    unfold lookup
    have := List.find?_append (p := fun e : WordInfo => decide (e.word = w)) (xs := infos.take k) (ys := infos.drop k)
    rw [List.take_append_drop] at this
    rw [this, List.find?_eq_none.2 hpre]
    rfl
  rw [hfind]
  by_cases hlt : k < infos.length
  · rw [List.getElem?_eq_getElem hlt, List.drop_eq_getElem_cons hlt]
    simp only []
    by_cases hw : infos[k].word = w
    · rw [if_pos hw, List.find?_cons_of_pos (by simpa using hw)]
      rfl
    · rw [if_neg hw, List.find?_cons_of_neg (by simpa using hw)]
      symm
      show Res.ok _ = Res.ok _
      congr 1
      rw [List.find?_eq_none]
      intro e he
      obtain ⟨j, hj, rfl⟩ := List.mem_iff_getElem.1 he
      rw [List.length_drop] at hj
      have hjl : k + 1 + j < infos.length := by omega
      rw [List.getElem_drop]
      have h3 := h2 k (by omega) hlt
      rw [List.getElem?_eq_getElem hlt] at h3
      have h4 := List.pairwise_iff_getElem.1 hs k (k + 1 + j) hlt hjl (by omega)
      simp only [decide_eq_true_eq, decide_eq_false_iff_not] at *
      omega
  · rw [List.getElem?_eq_none (by omega), List.drop_eq_nil_of_le (by omega)]
    rfl

theorem linePred_iff (flags y pos : Nat) (hy : y + 1 < W32) (hp : pos + 1 < W32) :
    linePred flags y pos = true ↔ Contradicts flags y pos := by
  have e1 : uadd y 1 = y + 1 := uadd_eq hy
  have e2 : uadd pos 1 = pos + 1 := uadd_eq hp
  unfold linePred Contradicts
  split
  · rw [decide_eq_true_eq, e1]; omega
  · rw [decide_eq_true_eq]
    split
    · rw [usub_eq (by omega) (by omega)]; omega
    · rw [usub_eq (by omega) (by omega)]; omega
  · rw [decide_eq_true_eq, e2]; omega
  · rw [decide_eq_true_eq, e1]; omega
  · rw [decide_eq_true_eq, e2]; omega
  · constructor
    · intro h; exact absurd h (by simp)
    · rename_i h1 h2 h3 h4 h5
      rintro (⟨h, _⟩ | ⟨h, _⟩ | ⟨h, _⟩ | ⟨h, _⟩ | ⟨h, _⟩)
      · exact absurd h h1
      · exact absurd h h2
      · exact absurd h h3
      · exact absurd h h4
      · exact absurd h h5

open Classical in
theorem wordPred_ok (infos : List WordInfo) (hs : InfosSorted infos) (field : WordLines → Nat) (y pos : Nat)
    (hy : y + 1 < W32) (hp : pos + 1 < W32) (v : View) :
    wordPred infos field y pos v = .ok (decide (Wrong infos field y pos v)) := by
  unfold wordPred
  rw [infosGet_ok infos v.word hs, Res.ok_bind]
  cases h : lookup infos v.word with
  | none =>
    have : ¬ Wrong infos field y pos v := by
      rintro ⟨e, he, _⟩
      rw [h] at he
      exact absurd he (by simp)
    rw [decide_eq_false this]
    rfl
  | some e =>
    have : Wrong infos field y pos v ↔ linePred (field e.lines) y pos = true := by
      rw [linePred_iff _ _ _ hy hp]
      constructor
      · rintro ⟨e', he, hc⟩
        rw [h] at he
        cases he
        exact hc
      · intro hc
        exact ⟨e, h, hc⟩
    show Res.ok _ = Res.ok _
    congr 1
    rw [Bool.eq_iff_iff, decide_eq_true_eq, this]

theorem wrong_byWord (infos : List WordInfo) (field : WordLines → Nat) (y pos : Nat) (u v : View)
    (h : u.word = v.word) : Wrong infos field y pos u ↔ Wrong infos field y pos v := by
  unfold Wrong
  rw [h]

/-! ### Runs -/

/-- The word of a run. -/
structure IsRun (g : List View) : Prop where
  ne : g ≠ []
  one : OneWord g

theorem wordRuns_flatten (l : List View) : (wordRuns l).flatten = l := by
  induction l with
  | nil => rfl
  | cons v l ih =>
    unfold wordRuns
    split
    · rename_i u g gs h
      rw [h] at ih
      split
      · simp only [List.flatten_cons, List.cons_append] at *
        rw [ih]
      · simp only [List.flatten_cons, List.cons_append, List.nil_append] at *
        rw [ih]
    · simp only [List.flatten_cons, List.cons_append, List.nil_append, ih]

theorem wordRuns_run (l : List View) : ∀ g ∈ wordRuns l, IsRun g := by
  induction l with
  | nil => intro g h; exact absurd h (by simp [wordRuns])
  | cons v l ih =>
    unfold wordRuns
    have h1 : IsRun [v] := ⟨by simp, by intro a ha b hb; simp only [List.mem_singleton] at *; rw [ha, hb]⟩
    split
    · rename_i u g gs h
      rw [h] at ih
      split
      · rename_i he
        intro x hx
        rcases List.mem_cons.1 hx with rfl | hx
        · refine ⟨by simp, ?_⟩
          have := (ih (u :: g) List.mem_cons_self).one
          have hw : ∀ a ∈ v :: u :: g, a.word = v.word := by
            intro a ha
            rcases List.mem_cons.1 ha with rfl | ha
            · rfl
            · rw [this a ha u List.mem_cons_self, he]
          intro a ha b hb
          rw [hw a ha, hw b hb]
        · exact ih x (List.mem_cons_of_mem _ hx)
      · intro x hx
        rcases List.mem_cons.1 hx with rfl | hx
        · exact h1
        · exact ih x hx
    · intro x hx
      rcases List.mem_cons.1 hx with rfl | hx
      · exact h1
      · exact ih x hx

/-- Adjacent runs differ. -/
def Adj : List (List View) → Prop
  | g :: h :: gs => (∀ u ∈ g, ∀ v ∈ h, u.word ≠ v.word) ∧ Adj (h :: gs)
  | _ => True

theorem wordRuns_adj (l : List View) : Adj (wordRuns l) := by
  induction l with
  | nil => trivial
  | cons v l ih =>
    have hr := wordRuns_run l
    unfold wordRuns
    split
    · rename_i u g gs h
      rw [h] at ih hr
      split
      · rename_i he
        match gs with
        | [] => trivial
        | k :: gs =>
          refine ⟨?_, ih.2⟩
          intro a ha b hb
          rcases List.mem_cons.1 ha with rfl | ha
          · rw [← he]; exact ih.1 u List.mem_cons_self b hb
          · exact ih.1 a ha b hb
      · rename_i hne
        refine ⟨?_, ih⟩
        intro a ha b hb
        rw [List.mem_singleton] at ha
        rw [ha, (hr (u :: g) List.mem_cons_self).one b hb u List.mem_cons_self]
        exact fun h => hne h.symm
    · rename_i h
      cases hw : wordRuns l with
      | nil => trivial
      | cons x xs =>
        rw [hw] at hr h
        cases x with
        | nil => exact absurd rfl (hr [] List.mem_cons_self).ne
        | cons u g => exact absurd rfl (h u g xs)

theorem starts_eq (l : List View) : (starts l).map some = (wordRuns l).map List.head? := by
  induction l with
  | nil => rfl
  | cons v l ih =>
    match l with
    | [] => rfl
    | u :: l =>
      unfold starts
      rw [wordRuns]
      have hf := wordRuns_flatten (u :: l)
      have hr := wordRuns_run (u :: l)
      match hw : wordRuns (u :: l) with
      | [] => rw [hw] at hf; exact absurd hf (by simp)
      | [] :: gs => exact absurd rfl (hr [] (by rw [hw]; exact List.mem_cons_self)).ne
      | (x :: g) :: gs =>
        rw [hw] at hf ih
        rw [List.flatten_cons, List.cons_append] at hf
        have hx : x = u := (List.cons.inj hf).1
        subst hx
        simp only []
        by_cases he : v.word = x.word
        · rw [if_pos he, if_pos he.symm]
          rw [List.map_cons, List.map_tail, ih]
          rfl
        · rw [if_neg he, if_neg (fun h => he h.symm)]
          rw [List.map_cons, ih]
          rfl

theorem twoRuns {l g h : List View} {gs : List (List View)} (e : wordRuns l = g :: h :: gs) :
    TwoRuns g h gs.flatten l := by
  have hf := wordRuns_flatten l
  have hr := wordRuns_run l
  have ha := wordRuns_adj l
  rw [e] at hf hr ha
  refine ⟨?_, (hr g (by simp)).ne, (hr h (by simp)).ne, (hr g (by simp)).one, (hr h (by simp)).one, ha.1, ?_⟩
  · rw [← hf]; simp
  · intro u hu v hv
    match gs with
    | [] => exact absurd hv (by simp)
    | k :: gs =>
      match k with
      | [] => exact absurd rfl (hr [] (by simp)).ne
      | x :: k =>
        have : v = x := by simpa using hv.symm
        subst this
        exact ha.2.1 u hu v List.mem_cons_self

/-! ### `filter_line` -/

section
variable {pred : View → Res Bool} {p : View → Bool}

theorem isRun_p {g : List View} (hp : ByWord p) (hg : IsRun g) :
    ∃ v t, g = v :: t ∧ ∀ u ∈ g, p u = p v := by
  match g, hg with
  | [], hg => exact absurd rfl hg.ne
  | v :: t, hg => exact ⟨v, t, rfl, fun u hu => hp _ _ (hg.one u hu v List.mem_cons_self)⟩

theorem filter_run {v : View} {g : List View} (h : ∀ u ∈ g, p u = p v) :
    g.filter (fun u => !p u) = if p v then [] else g := by
  cases hv : p v with
  | true =>
    rw [if_pos rfl, List.filter_eq_nil_iff]
    intro u hu
    simp [h u hu, hv]
  | false =>
    rw [if_neg (by simp), List.filter_eq_self]
    intro u hu
    simp [h u hu, hv]

/-- Number of runs on which `p` does not hold. -/
def keptCount (p : View → Bool) (gs : List (List View)) : Nat :=
  gs.countP fun g => match g with
    | v :: _ => !p v
    | [] => false

theorem keptCount_cons (v : View) (t : List View) (gs : List (List View)) :
    keptCount p ((v :: t) :: gs) = (if p v then 0 else 1) + keptCount p gs := by
  unfold keptCount
  rw [List.countP_cons]
  cases hv : p v <;> simp [hv, Nat.add_comm]

theorem keptCount_starts (l : List View) (k : Nat) :
    keptCount p ((wordRuns l).drop k) = ((starts l).drop k).countP fun v => !p v := by
  have := starts_eq l
  generalize hgs : wordRuns l = gs at *
  generalize starts l = ss at *
  have h2 : (ss.drop k).map some = (gs.drop k).map List.head? := by
    rw [List.map_drop, List.map_drop, this]
  generalize ss.drop k = a at *
  generalize gs.drop k = b at *
  unfold keptCount
  induction a generalizing b with
  | nil =>
    cases b with
    | nil => rfl
    | cons => simp at h2
  | cons x a ih =>
    cases b with
    | nil => simp at h2
    | cons g b =>
      rw [List.map_cons, List.map_cons] at h2
      obtain ⟨h3, h4⟩ := List.cons.inj h2
      rw [List.countP_cons, List.countP_cons, ih b h4]
      cases g with
      | nil => simp at h3
      | cons v t =>
        have : x = v := by simpa using h3
        rw [this]

theorem filterRuns_ok (hpred : ∀ v, pred v = .ok (p v)) (hp : ByWord p) (gs : List (List View)) (n : Nat)
    (hr : ∀ g ∈ gs, IsRun g) (hn : n + gs.length < W32) :
    filterRuns pred gs n = .ok (gs.flatten.filter (fun v => !p v), n + keptCount p gs) := by
  induction gs generalizing n with
  | nil => rfl
  | cons g gs ih =>
    obtain ⟨v, t, rfl, hg⟩ := isRun_p hp (hr g List.mem_cons_self)
    rw [List.length_cons] at hn
    unfold filterRuns
    rw [show predFirst pred (v :: t) = .ok (p v) from hpred v, Res.ok_bind]
    rw [List.flatten_cons, List.filter_append, filter_run hg]
    have hk := keptCount_cons (p := p) v t gs
    rw [hk]
    cases hv : p v with
    | true =>
      simp only [if_true]
      rw [ih n (fun x hx => hr x (List.mem_cons_of_mem _ hx)) (by omega), Res.ok_bind]
      simp
    | false =>
      simp only [Bool.false_eq_true, if_false]
      rw [uadd_eq (by omega), ih (n + 1) (fun x hx => hr x (List.mem_cons_of_mem _ hx)) (by omega), Res.ok_bind]
      simp only [Nat.add_assoc]
      rfl

theorem keepRuns_ok (hpred : ∀ v, pred v = .ok (p v)) (hp : ByWord p) (g : List View) (gs : List (List View)) (n : Nat)
    (hr : ∀ x ∈ gs, IsRun x) (hn : n + gs.length + 1 < W32) :
    ∃ k rest m t c, keepRuns pred (g :: gs) n = .ok (k, rest, m) ∧ filterRuns pred rest m = .ok (t, c) ∧
      k ++ t = g ++ gs.flatten.filter (fun v => !p v) ∧ c = n + 1 + keptCount p gs := by
  induction gs generalizing g n with
  | nil =>
    refine ⟨g, [], n + 1, [], n + 1, ?_, rfl, rfl, rfl⟩
    unfold keepRuns
    simp only [List.length_nil] at hn
    rw [uadd_eq (by omega)]
  | cons h gs ih =>
    rw [List.length_cons] at hn
    obtain ⟨v, t, rfl, hg⟩ := isRun_p hp (hr h List.mem_cons_self)
    have hk := keptCount_cons (p := p) v t gs
    unfold keepRuns
    simp only []
    rw [show predFirst pred (v :: t) = .ok (p v) from hpred v, Res.ok_bind]
    rw [List.flatten_cons, List.filter_append, filter_run hg, hk, uadd_eq (by omega)]
    cases hv : p v with
    | true =>
      rw [if_pos rfl]
      refine ⟨_, _, _, _, _, rfl, filterRuns_ok hpred hp _ _ hr (by rw [List.length_cons]; omega), ?_, ?_⟩
      · rw [List.flatten_cons, List.filter_append, filter_run hg, hv]
      · rw [hk, hv]
    | false =>
      rw [if_neg (by simp)]
      obtain ⟨k, rest, m, t', c, e1, e2, e3, e4⟩ := ih (v :: t) (n + 1)
        (fun x hx => hr x (List.mem_cons_of_mem _ hx)) (by omega)
      rw [e1, Res.ok_bind]
      refine ⟨_, _, _, _, _, rfl, e2, ?_, ?_⟩
      · rw [List.append_assoc, e3]
        simp
      · rw [e4]
        simp only [Bool.false_eq_true, if_false]
        omega

theorem wordRuns_length (l : List View) : (wordRuns l).length ≤ l.length := by
  have hf := wordRuns_flatten l
  have hr := wordRuns_run l
  have : ∀ gs : List (List View), (∀ g ∈ gs, IsRun g) → gs.length ≤ gs.flatten.length := by
    intro gs h
    induction gs with
    | nil => exact Nat.le_refl _
    | cons g gs ih =>
      have h1 := (h g List.mem_cons_self).ne
      have h2 := ih fun x hx => h x (List.mem_cons_of_mem _ hx)
      have := List.length_pos_iff.2 h1
      rw [List.flatten_cons, List.length_append, List.length_cons]
      omega
  have := this _ hr
  rw [hf] at this
  exact this

theorem filterLine_ok (hpred : ∀ v, pred v = .ok (p v)) (hp : ByWord p) (l : List View)
    (hl : l.length < W32) :
    ∃ l' n, filterLine pred l = .ok (l', n) ∧ LineFiltered p l l' n := by
  have hlen := wordRuns_length l
  have hr := wordRuns_run l
  have hf := wordRuns_flatten l
  unfold filterLine
  match hw : wordRuns l with
  | [] =>
    rw [hw] at hf
    refine ⟨l, 0, rfl, Or.inl ⟨?_, rfl, rfl⟩⟩
    rw [← hf]
    intro u hu
    exact absurd hu (by simp)
  | [g] =>
    rw [hw] at hf hr
    refine ⟨l, 0, rfl, Or.inl ⟨?_, rfl, rfl⟩⟩
    rw [← hf]
    simp only [List.flatten_cons, List.flatten_nil, List.append_nil]
    exact (hr g List.mem_cons_self).one
  | g :: h :: gs =>
    have two := twoRuns hw
    have hc0 := keptCount_starts (p := p) l 0
    have hc2 := keptCount_starts (p := p) l 2
    rw [hw] at hf hr hlen hc0 hc2
    simp only [List.length_cons] at hlen
    obtain ⟨v, t, hgv, hg⟩ := isRun_p hp (hr g List.mem_cons_self)
    obtain ⟨v2, t2, rfl, hh⟩ := isRun_p hp (hr h (by simp))
    have hlast : predLast pred g = .ok (p v) := by
      unfold predLast
      rw [List.getLast?_eq_some_getLast two.g_ne]
      simp only []
      rw [hpred, hg _ (List.getLast_mem two.g_ne)]
    simp only []
    rw [hlast, Res.ok_bind]
    unfold keepFirstRuns
    cases hv : p v with
    | true =>
      rw [if_pos rfl, Res.ok_bind]
      simp only []
      rw [filterRuns_ok hpred hp _ _ (fun x hx => hr x (List.mem_cons_of_mem _ hx)) (by
        simp only [List.length_cons]; omega), Res.ok_bind]
      refine ⟨_, _, rfl, Or.inr ⟨g, v2 :: t2, gs.flatten, two, Or.inl ⟨?_, ?_, ?_⟩⟩⟩
      · intro u hu; rw [hg u hu, hv]
      · have h2 : l.filter (fun v => !p v) =
            g.filter (fun v => !p v) ++ ((v2 :: t2) :: gs).flatten.filter (fun v => !p v) := by
          rw [← hf, List.flatten_cons, List.filter_append]
        rw [h2, filter_run hg, hv]
        simp
      · rw [List.drop_zero, List.drop_zero] at hc0
        rw [← hc0, hgv]
        unfold keptCount
        rw [List.countP_cons (a := v :: t)]
        simp [hv]
    | false =>
      rw [if_neg (by simp)]
      obtain ⟨k, rest, m, t', c, e1, e2, e3, e4⟩ := keepRuns_ok hpred hp (v2 :: t2) gs 0
        (fun x hx => hr x (by simp [hx])) (by omega)
      rw [e1, Res.ok_bind]
      simp only [Res.pure_eq, Res.ok_bind]
      rw [e2, Res.ok_bind]
      refine ⟨_, _, rfl, Or.inr ⟨g, v2 :: t2, gs.flatten, two, Or.inr ⟨?_, ?_, ?_⟩⟩⟩
      · intro u hu; rw [hg u hu, hv]
      · rw [List.append_assoc, e3, List.append_assoc]
      · rw [e4, ← hc2]
        simp

end

/-! ### The runs are determined by the list -/

/-- The run at the beginning of a list is the longest prefix of one word. -/
theorem prefix_unique {g r g' r' : List View} (e : g ++ r = g' ++ r') (h0 : g ≠ []) (h0' : g' ≠ [])
    (h1 : OneWord g) (h1' : OneWord g') (hd : ∀ u ∈ g, ∀ v ∈ r.head?, u.word ≠ v.word)
    (hd' : ∀ u ∈ g', ∀ v ∈ r'.head?, u.word ≠ v.word) : g = g' ∧ r = r' := by
  have main : ∀ {g r g' r' : List View}, g ++ r = g' ++ r' → g ≠ [] → OneWord g' →
      (∀ u ∈ g, ∀ v ∈ r.head?, u.word ≠ v.word) → ¬ g.length < g'.length := by
    intro g r g' r' e h0 h1' hd hlt
    have hg : g = g'.take g.length := by
      have := congrArg (List.take g.length) e
      rw [List.take_append_of_le_length (Nat.le_refl _), List.take_length,
        List.take_append_of_le_length (by omega)] at this
      exact this
    have hx : r.head? = g'[g.length]? := by
      have := congrArg (fun l => l[g.length]?) e
      rw [List.getElem?_append_right (Nat.le_refl _), Nat.sub_self, List.getElem?_append_left hlt] at this
      rw [List.head?_eq_getElem?, this]
    obtain ⟨u, hu⟩ := List.exists_mem_of_ne_nil _ h0
    refine hd u hu _ (by rw [hx, List.getElem?_eq_getElem hlt]; rfl) (h1' u ?_ _ (List.getElem_mem hlt))
    rw [hg] at hu
    exact List.mem_of_mem_take hu
  have l1 := main e h0 h1' hd
  have l2 := main e.symm h0' h1 hd'
  exact List.append_inj e (by omega)

theorem twoRuns_head {g h rest l : List View} (t : TwoRuns g h rest l) :
    ∀ u ∈ g, ∀ v ∈ (h ++ rest).head?, u.word ≠ v.word := by
  intro u hu v hv
  match h, t with
  | [], t => exact absurd rfl t.h_ne
  | x :: h, t =>
    have : v = x := by simpa using hv.symm
    rw [this]
    exact t.differ u hu x List.mem_cons_self

theorem runs_unique {g h rest g' h' rest' l : List View} (t : TwoRuns g h rest l)
    (t' : TwoRuns g' h' rest' l) : g = g' := by
  have e : g ++ (h ++ rest) = g' ++ (h' ++ rest') := by
    rw [← List.append_assoc, ← List.append_assoc, ← t.eq, ← t'.eq]
  exact (prefix_unique e t.g_ne t'.g_ne t.g_word t'.g_word (twoRuns_head t) (twoRuns_head t')).1

theorem runs_unique2 {g h rest g' h' rest' l : List View} (t : TwoRuns g h rest l)
    (t' : TwoRuns g' h' rest' l) : h = h' := by
  have e : g ++ (h ++ rest) = g' ++ (h' ++ rest') := by
    rw [← List.append_assoc, ← List.append_assoc, ← t.eq, ← t'.eq]
  have e2 := (prefix_unique e t.g_ne t'.g_ne t.g_word t'.g_word (twoRuns_head t) (twoRuns_head t')).2
  exact (prefix_unique e2 t.h_ne t'.h_ne t.h_word t'.h_word t.ends t'.ends).1

end Ppocr

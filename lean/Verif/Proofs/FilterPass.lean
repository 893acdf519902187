import Verif.Proofs.FilterLines

/-! # Helper lemmas: the passes of `filter_by_lines` -/

namespace Ppocr
open Spec

/-! ### Histograms -/

/-- The first `n` cells of `ys` count the numbers `lo`, `lo + 1`, … of `zs`. -/
structure Hist (n lo : Nat) (ys zs : List Nat) : Prop where
  len : n ≤ ys.length
  cell : ∀ k, k < n → ys[k]? = some (zs.count (lo + k))

theorem bumpAt_ok {n lo : Nat} {ys zs : List Nat} (h : Hist n lo ys zs) (y : Nat) (h1 : lo ≤ y)
    (h2 : y - lo < n) (hy : y < W32) (hz : zs.length + 1 < W32) :
    ∃ ys', bumpAt ys (usub y lo) = .ok ys' ∧ ys'.length = ys.length ∧ Hist n lo ys' (zs ++ [y]) := by
  have hlen := h.len
  have hlt : y - lo < ys.length := by omega
  have hc := h.cell (y - lo) h2
  rw [Nat.add_sub_cancel' h1] at hc
  have hcnt : zs.count y ≤ zs.length := List.count_le_length
  unfold bumpAt
  rw [usub_eq (by omega) h1, rd_of_getElem? hc, Res.ok_bind, uadd_eq (by omega)]
  refine ⟨_, rfl, List.length_set .., ⟨by rw [List.length_set]; exact hlen, ?_⟩⟩
  intro k hk
  rw [List.count_append]
  by_cases hky : y - lo = k
  · rw [← hky, List.getElem?_set_self hlt, Nat.add_sub_cancel' h1]
    simp
  · rw [List.getElem?_set_ne hky, h.cell k hk]
    have : [y].count (lo + k) = 0 := by
      rw [List.count_eq_zero, List.mem_singleton]
      omega
    rw [this]
    rfl

theorem bumpBottoms_ok {n lo : Nat} (bs : List Box) (ys zs : List Nat) (h : Hist n lo ys zs)
    (hb : ∀ b ∈ bs, lo ≤ b.bottom ∧ b.bottom - lo < n ∧ b.bottom < W32)
    (hz : zs.length + bs.length < W32) :
    ∃ ys', bumpBottoms lo bs ys = .ok ys' ∧ ys'.length = ys.length ∧
      Hist n lo ys' (zs ++ bs.map Box.bottom) := by
  induction bs generalizing ys zs with
  | nil => exact ⟨ys, rfl, rfl, by rw [List.map_nil, List.append_nil]; exact h⟩
  | cons b bs ih =>
    rw [List.length_cons] at hz
    obtain ⟨h1, h2, h3⟩ := hb b List.mem_cons_self
    obtain ⟨ys1, e1, e2, e3⟩ := bumpAt_ok h b.bottom h1 h2 h3 (by omega)
    obtain ⟨ys2, e4, e5, e6⟩ := ih ys1 _ e3 (fun c hc => hb c (List.mem_cons_of_mem _ hc)) (by
      rw [List.length_append, List.length_singleton]; omega)
    refine ⟨ys2, ?_, by rw [e5, e2], ?_⟩
    · unfold bumpBottoms
      rw [e1, Res.ok_bind, e4]
    · rw [List.map_cons, List.append_cons]
      exact e6

theorem maxIndexFrom_ok (l pre : List Nat) (best pos : Nat) (hp : pre[pos]? = some best)
    (hm : ∀ (k n : Nat), pre[k]? = some n → n ≤ best ∧ (n = best → pos ≤ k)) :
    ∃ m, (pre ++ l)[maxIndexFrom best pos pre.length l]? = some m ∧
      ∀ (k n : Nat), (pre ++ l)[k]? = some n → n ≤ m ∧ (n = m → maxIndexFrom best pos pre.length l ≤ k) := by
  induction l generalizing pre best pos with
  | nil =>
    rw [List.append_nil]
    exact ⟨best, hp, hm⟩
  | cons x l ih =>
    have hpl : pos < pre.length := (List.getElem?_eq_some_iff.1 hp).1
    rw [List.append_cons]
    unfold maxIndexFrom
    have hx : (pre ++ [x])[pre.length]? = some x := by simp
    have hl : (pre ++ [x]).length = pre.length + 1 := by simp
    have cases : ∀ (k n : Nat), (pre ++ [x])[k]? = some n → pre[k]? = some n ∨ (k = pre.length ∧ n = x) := by
      intro k n h
      by_cases hk : k < pre.length
      · rw [List.getElem?_append_left hk] at h
        exact Or.inl h
      · have hk2 := (List.getElem?_eq_some_iff.1 h).1
        have : k = pre.length := by omega
        subst this
        rw [hx] at h
        exact Or.inr ⟨rfl, (Option.some.inj h).symm⟩
    split
    · rename_i hlt
      have := ih (pre ++ [x]) x pre.length hx (by
        intro k n h
        rcases cases k n h with h | ⟨h, h2⟩
        · have := (hm k n h).1
          exact ⟨by omega, fun h => by omega⟩
        · exact ⟨by omega, fun _ => by omega⟩)
      rw [hl] at this
      exact this
    · rename_i hlt
      have := ih (pre ++ [x]) best pos (by rw [List.getElem?_append_left hpl]; exact hp) (by
        intro k n h
        rcases cases k n h with h | ⟨h, h2⟩
        · exact hm k n h
        · exact ⟨by omega, fun _ => by omega⟩)
      rw [hl] at this
      exact this

theorem maxIndex_ok (l : List Nat) (h : l ≠ []) :
    ∃ m, l[maxIndex l]? = some m ∧ ∀ (k n : Nat), l[k]? = some n → n ≤ m ∧ (n = m → maxIndex l ≤ k) := by
  match l, h with
  | [], h => exact absurd rfl h
  | x :: l, _ =>
    have := maxIndexFrom_ok l [x] x 0 rfl (by
      intro k n h
      match k with
      | 0 =>
        simp at h
        exact ⟨by omega, fun _ => Nat.le_refl _⟩
      | k + 1 => simp at h)
    exact this

theorem mode_of_hist {n lo : Nat} {ys zs : List Nat} (h : Hist n lo ys zs) (h0 : zs ≠ [])
    (hz : ∀ z ∈ zs, lo ≤ z ∧ z - lo < n) : IsMode zs (lo + maxIndex (ys.take n)) := by
  have hn : 0 < n := by
    match zs, h0 with
    | z :: _, _ => have := hz z List.mem_cons_self; omega
  have hl : (ys.take n).length = n := by
    rw [List.length_take]
    have := h.len
    omega
  have hne : ys.take n ≠ [] := by
    intro he
    rw [he] at hl
    simp at hl
    omega
  obtain ⟨m, e, hm⟩ := maxIndex_ok _ hne
  have hlt : maxIndex (ys.take n) < n := by
    have := (List.getElem?_eq_some_iff.1 e).1
    omega
  have tk : ∀ k, k < n → (ys.take n)[k]? = some (zs.count (lo + k)) := by
    intro k hk
    rw [List.getElem?_take, if_pos hk, h.cell k hk]
  rw [tk _ hlt] at e
  have e := Option.some.inj e
  generalize maxIndex (ys.take n) = q at *
  have hle : ∀ z, z ∈ zs → zs.count z ≤ zs.count (lo + q) ∧ (zs.count z = zs.count (lo + q) → lo + q ≤ z) := by
    intro z hmz
    obtain ⟨h1, h2⟩ := hz z hmz
    have := hm (z - lo) _ (tk (z - lo) h2)
    rw [Nat.add_sub_cancel' h1, ← e] at this
    refine ⟨this.1, fun hc => ?_⟩
    have := this.2 hc
    omega
  refine ⟨?_, ?_⟩
  · rw [← List.count_pos_iff]
    match zs, h0 with
    | z :: zs, _ =>
      have h1 := (hle z List.mem_cons_self).1
      have h2 : 0 < (z :: zs).count z := List.count_pos_iff.2 List.mem_cons_self
      omega
  · intro z
    by_cases hmz : z ∈ zs
    · exact ⟨(hle z hmz).1, fun hc _ => (hle z hmz).2 hc⟩
    · rw [List.count_eq_zero_of_not_mem hmz]
      exact ⟨Nat.zero_le _, fun _ h => absurd h hmz⟩

/-! ### Minima and maxima -/

theorem foldl_min (l : List Nat) (a : Nat) : l.foldl min a ≤ a ∧ (∀ x ∈ l, l.foldl min a ≤ x) ∧
    (l.foldl min a = a ∨ l.foldl min a ∈ l) := by
  induction l generalizing a with
  | nil => exact ⟨Nat.le_refl _, fun x h => absurd h (by simp), Or.inl rfl⟩
  | cons b l ih =>
    rw [List.foldl_cons]
    obtain ⟨h1, h2, h3⟩ := ih (min a b)
    refine ⟨by omega, ?_, ?_⟩
    · intro x hx
      rcases List.mem_cons.1 hx with rfl | hx
      · omega
      · exact h2 x hx
    · rcases h3 with h3 | h3
      · by_cases hab : a ≤ b
        · left; omega
        · right
          rw [h3, Nat.min_eq_right (by omega)]
          exact List.mem_cons_self
      · exact Or.inr (List.mem_cons_of_mem _ h3)

theorem foldl_max (l : List Nat) (a : Nat) : a ≤ l.foldl max a ∧ (∀ x ∈ l, x ≤ l.foldl max a) ∧
    (l.foldl max a = a ∨ l.foldl max a ∈ l) := by
  induction l generalizing a with
  | nil => exact ⟨Nat.le_refl _, fun x h => absurd h (by simp), Or.inl rfl⟩
  | cons b l ih =>
    rw [List.foldl_cons]
    obtain ⟨h1, h2, h3⟩ := ih (max a b)
    refine ⟨by omega, ?_, ?_⟩
    · intro x hx
      rcases List.mem_cons.1 hx with rfl | hx
      · omega
      · exact h2 x hx
    · rcases h3 with h3 | h3
      · by_cases hab : b ≤ a
        · left; omega
        · right
          rw [h3, Nat.max_eq_right (by omega)]
          exact List.mem_cons_self
      · exact Or.inr (List.mem_cons_of_mem _ h3)

theorem minMaxBox_eq (b : Box) (bs : List Box) : minMaxBox b bs =
    ⟨(bs.map Box.y).foldl min b.y, (bs.map Box.y).foldl max 0, (bs.map Box.bottom).foldl min b.bottom,
      (bs.map Box.bottom).foldl max 0⟩ := by
  unfold minMaxBox
  generalize b.y = p
  generalize b.bottom = q
  generalize 0 = x
  have : ∀ y, bs.foldl (fun m c => (⟨min m.minTop c.y, max m.maxTop c.y, min m.minBottom c.bottom,
      max m.maxBottom c.bottom⟩ : MinMax)) ⟨p, x, q, y⟩ =
      ⟨(bs.map Box.y).foldl min p, (bs.map Box.y).foldl max x, (bs.map Box.bottom).foldl min q,
        (bs.map Box.bottom).foldl max y⟩ := by
    induction bs generalizing p q x with
    | nil => intro y; rfl
    | cons c bs ih =>
      intro y
      rw [List.foldl_cons, ih]
      rfl
  exact this x

theorem Spec.BoxOk.bottom {b : Box} (h : BoxOk b) : b.bottom = b.y + b.h - 1 ∧ b.bottom + 2 < W32 ∧ b.y + 2 < W32 := by
  obtain ⟨h1, h2⟩ := h
  unfold Box.bottom
  rw [uadd_eq (by omega), usub_eq (by omega) (by omega)]
  exact ⟨rfl, by omega, by omega⟩

/-- The least and greatest positions, when the first box is not the only lowest one. -/
structure Range (boxes : List Box) (m : MinMax) : Prop where
  top : ∀ c ∈ boxes, m.minTop ≤ c.y ∧ c.y - m.minTop < m.topLen
  bottom : ∀ c ∈ boxes, m.minBottom ≤ c.bottom ∧ c.bottom - m.minBottom < m.bottomLen
  topLen : ∃ c ∈ boxes, ∃ d ∈ boxes, m.topLen = c.y - d.y + 1
  bottomLen : ∃ c ∈ boxes, ∃ d ∈ boxes, m.bottomLen = c.bottom - d.bottom + 1
  minTop : m.minTop + 2 < W32
  minBottom : m.minBottom + 2 < W32

theorem range_ok (b : Box) (bs : List Box) (hb : ∀ c ∈ b :: bs, BoxOk c) (hs : Spread b bs) :
    Range (b :: bs) (minMaxBox b bs) := by
  rw [minMaxBox_eq]
  obtain ⟨⟨c1, hc1, hle1⟩, c2, hc2, hle2⟩ := hs
  have ob := (hb b List.mem_cons_self).bottom
  have o1 := (hb c1 (List.mem_cons_of_mem _ hc1)).bottom
  have hbo := hb b List.mem_cons_self
  -- one coordinate at a time
  have key : ∀ (f : Box → Nat), (∀ c ∈ b :: bs, f c + 2 < W32) → (∃ c ∈ bs, f b ≤ f c) →
      (∀ c ∈ b :: bs, (bs.map f).foldl min (f b) ≤ f c ∧
        f c - (bs.map f).foldl min (f b) < uadd (usub ((bs.map f).foldl max 0) ((bs.map f).foldl min (f b))) 1) ∧
      (∃ c ∈ b :: bs, ∃ d ∈ b :: bs,
        uadd (usub ((bs.map f).foldl max 0) ((bs.map f).foldl min (f b))) 1 = f c - f d + 1) ∧
      (bs.map f).foldl min (f b) + 2 < W32 := by
    intro f hf hex
    obtain ⟨c, hc, hfc⟩ := hex
    obtain ⟨a1, a2, a3⟩ := foldl_min (bs.map f) (f b)
    obtain ⟨b1, b2, b3⟩ := foldl_max (bs.map f) 0
    generalize (bs.map f).foldl min (f b) = lo at *
    generalize (bs.map f).foldl max 0 = hi at *
    have hcm := List.mem_map_of_mem (f := f) hc
    have hhi := b2 _ hcm
    have hlo := a2 _ hcm
    have hihi : ∃ c ∈ b :: bs, hi = f c := by
      rcases b3 with h | h
      · exact ⟨c, List.mem_cons_of_mem _ hc, by omega⟩
      · obtain ⟨d, hd, e⟩ := List.mem_map.1 h
        exact ⟨d, List.mem_cons_of_mem _ hd, e.symm⟩
    have hlolo : ∃ d ∈ b :: bs, lo = f d := by
      rcases a3 with h | h
      · exact ⟨b, List.mem_cons_self, h⟩
      · obtain ⟨d, hd, e⟩ := List.mem_map.1 h
        exact ⟨d, List.mem_cons_of_mem _ hd, e.symm⟩
    obtain ⟨c', hc', ehi⟩ := hihi
    obtain ⟨d', hd', elo⟩ := hlolo
    have hw := hf c' hc'
    have hw2 := hf d' hd'
    rw [usub_eq (by omega) (by omega), uadd_eq (by omega)]
    refine ⟨?_, ⟨c', hc', d', hd', by omega⟩, by omega⟩
    intro x hx
    rcases List.mem_cons.1 hx with rfl | hx
    · omega
    · have := a2 _ (List.mem_map_of_mem (f := f) hx)
      have := b2 _ (List.mem_map_of_mem (f := f) hx)
      omega
  obtain ⟨t1, t2, t3⟩ := key Box.y (fun c hc => (hb c hc).bottom.2.2) ⟨c2, hc2, hle2⟩
  obtain ⟨s1, s2, s3⟩ := key Box.bottom (fun c hc => (hb c hc).bottom.2.1) ⟨c1, hc1, by
    rw [ob.1, o1.1]; have := hbo.1; omega⟩
  exact ⟨t1, s1, t2, s2, t3, s3⟩

/-! ### The passes -/

theorem starts_mem (l : List View) : ∀ v ∈ starts l, v ∈ l := by
  induction l with
  | nil => intro v h; exact absurd h (by simp [starts])
  | cons u l ih =>
    match l, ih with
    | [], _ => intro v h; exact h
    | x :: l, ih =>
      intro v h
      unfold starts at h
      rcases List.mem_cons.1 h with h | h
      · rw [h]; exact List.mem_cons_self
      · apply List.mem_cons_of_mem
        apply ih
        split at h
        · exact List.mem_of_mem_tail h
        · exact h

theorem lineFiltered_len {p : View → Bool} {l l' : List View} {n : Nat} (h : LineFiltered p l l' n) :
    l'.length ≤ l.length := by
  rcases h with ⟨_, rfl, _⟩ | ⟨g, h, rest, two, ⟨_, rfl, _⟩ | ⟨_, rfl, _⟩⟩
  · exact Nat.le_refl _
  · exact List.length_filter_le ..
  · rw [two.eq, List.length_append, List.length_append (as := g ++ h)]
    have := List.length_filter_le (fun v => !p v) rest
    omega

theorem lineFiltered_one {p : View → Bool} {l l' : List View} (h : LineFiltered p l l' 1) : l' ≠ [] := by
  rcases h with ⟨_, _, h⟩ | ⟨g, h, rest, two, ⟨_, rfl, hn⟩ | ⟨_, rfl, _⟩⟩
  · exact absurd h (by simp)
  · have : 0 < (starts l).countP fun v => !p v := by omega
    obtain ⟨v, hv, hp⟩ := List.countP_pos_iff.1 this
    exact List.ne_nil_of_mem (List.mem_filter.2 ⟨starts_mem l v hv, hp⟩)
  · intro he
    have := two.g_ne
    simp at he
    exact this he.1

theorem countMean_ok (infos : List WordInfo) (hs : InfosSorted infos) {n lo : Nat} (b : Box) (l : List View)
    (c : Nat) (hne : c = 1 → l ≠ []) (map zs : List Nat) (has : Bool) (h : Hist n lo map zs) (h1 : lo ≤ b.y)
    (h2 : b.y - lo < n) (hy : b.y < W32) (hz : zs.length + 1 < W32) :
    ∃ map' has', countMean infos lo b l c map has = .ok (map', has') ∧ map'.length = map.length ∧
      Hist n lo map' (zs ++ (meanTop infos b l c).toList) ∧
      has' = (has || (meanTop infos b l c).isSome) := by
  unfold countMean meanTop
  by_cases hc : c = 1
  · rw [if_pos hc]
    match l, hne hc with
    | v :: l, _ =>
      rw [show rd (v :: l) 0 = .ok v from rfl, Res.ok_bind, infosGet_ok infos v.word hs, Res.ok_bind]
      cases hv : lookup infos v.word with
      | none =>
        rw [if_neg (by
          rintro ⟨_, v', e, h0, hl, _⟩
          simp at h0
          subst h0
          rw [hv] at hl
          exact absurd hl (by simp))]
        exact ⟨map, has, rfl, rfl, by simpa using h, by simp⟩
      | some e =>
        simp only []
        by_cases hd : e.lines.base = 2 ∧ e.lines.mean = 2
        · rw [if_pos hd, if_pos ⟨hc, v, e, rfl, hv, hd⟩]
          obtain ⟨m', e1, e2, e3⟩ := bumpAt_ok h b.y h1 h2 hy hz
          rw [e1, Res.ok_bind]
          exact ⟨m', true, rfl, e2, e3, by simp⟩
        · rw [if_neg hd, if_neg (by
            rintro ⟨_, v', e', h0, hl, hd'⟩
            simp at h0
            subst h0
            rw [hv] at hl
            cases hl
            exact hd hd')]
          exact ⟨map, has, rfl, rfl, by simpa using h, by simp⟩
  · rw [if_neg hc, if_neg (fun h => hc h.1)]
    exact ⟨map, has, rfl, rfl, by simpa using h, by simp⟩

theorem stOk_set {st : List (List View)} (h : StOk st) (r : Nat) (l : List View) (hl : l.length < W32) :
    StOk (st.set r l) := by
  intro x hx
  rcases List.mem_or_eq_of_mem_set hx with h1 | h1
  · exact h x h1
  · rw [h1]; exact hl

open Classical in
theorem basePass_ok (infos : List WordInfo) (hs : InfosSorted infos) (baseline : Nat) (hbl : baseline + 1 < W32)
    {n lo : Nat} (l : List (Nat × Box)) (st : List (List View)) (map zs : List Nat) (has : Bool)
    (hr : ∀ e ∈ l, e.1 < st.length) (hst : StOk st)
    (hb : ∀ e ∈ l, lo ≤ e.2.y ∧ e.2.y - lo < n ∧ BoxOk e.2) (h : Hist n lo map zs)
    (hz : zs.length + l.length < W32) :
    ∃ st' map' has', ∃ mids : List (List View × Nat),
      basePass infos baseline lo l st map has = .ok (st', map', has') ∧ st'.length = st.length ∧ StOk st' ∧
      mids.length = l.length ∧ map'.length = map.length ∧
      Hist n lo map' (zs ++ (l.zip mids).filterMap fun e => meanTop infos e.1.2 e.2.1 e.2.2) ∧
      has' = (has || ((l.zip mids).filterMap fun e => meanTop infos e.1.2 e.2.1 e.2.2) != []) ∧
      (∀ r, r ∉ l.map Prod.fst → st'[r]? = st[r]?) ∧
      ((l.map Prod.fst).Nodup → ∀ (k r : Nat) (b : Box), l[k]? = some (r, b) →
        ∃ v mid c, st[r]? = some v ∧ mids[k]? = some (mid, c) ∧ st'[r]? = some mid ∧
          filterLine (wordPred infos WordLines.base b.bottom baseline) v = .ok (mid, c) ∧
          LineFiltered (fun x => decide (Wrong infos WordLines.base b.bottom baseline x)) v mid c) := by
  induction l generalizing st map zs has with
  | nil =>
    refine ⟨st, map, has, [], rfl, rfl, hst, rfl, rfl, by simpa using h, by simp, fun _ _ => rfl, ?_⟩
    intro _ k r b hk
    exact absurd hk (by simp)
  | cons e l ih =>
    obtain ⟨r, b⟩ := e
    rw [List.length_cons] at hz
    have hlt := hr (r, b) List.mem_cons_self
    simp only at hlt
    obtain ⟨h1, h2, h3⟩ := hb (r, b) List.mem_cons_self
    have hbo := h3.bottom
    obtain ⟨mid, c, e1, e2⟩ := filterLine_ok (pred := wordPred infos WordLines.base b.bottom baseline)
      (p := fun x => decide (Wrong infos WordLines.base b.bottom baseline x))
      (wordPred_ok infos hs _ _ _ (by simp only at hbo; omega) hbl)
      (fun u v huv => by simp only [wrong_byWord infos _ _ _ u v huv]) st[r] (hst _ (List.getElem_mem hlt))
    obtain ⟨map1, has1, f1, f2, f3, f4⟩ := countMean_ok infos hs b mid c
      (fun hc => lineFiltered_one (hc ▸ e2)) map zs has h h1 h2 (by simp only at hbo; omega) (by omega)
    have hmid : mid.length < W32 := by
      have := lineFiltered_len e2
      have := hst _ (List.getElem_mem hlt)
      omega
    have hopt : (meanTop infos b mid c).toList.length ≤ 1 := by
      cases meanTop infos b mid c <;> simp
    obtain ⟨st', map', has', mids, g1, g2, g3, g4, g5, g6, g7, g8, g9⟩ := ih (st.set r mid) map1 _ has1
      (fun e he => by rw [List.length_set]; exact hr e (List.mem_cons_of_mem _ he))
      (stOk_set hst r mid hmid) (fun e he => hb e (List.mem_cons_of_mem _ he)) f3 (by
        rw [List.length_append]; omega)
    refine ⟨st', map', has', (mid, c) :: mids, ?_, by rw [g2, List.length_set], g3, by simp [g4],
      by rw [g5, f2], ?_, ?_, ?_, ?_⟩
    · unfold basePass
      rw [rd_of_lt hlt, Res.ok_bind, e1, Res.ok_bind]
      simp only []
      rw [f1, Res.ok_bind]
      exact g1
    · rw [List.append_assoc] at g6
      rw [List.zip_cons_cons, List.filterMap_cons]
      simp only []
      cases hm : meanTop infos b mid c with
      | none => rw [hm] at g6; simpa using g6
      | some y => rw [hm] at g6; simpa using g6
    · rw [g7, f4, List.zip_cons_cons, List.filterMap_cons]
      simp only []
      cases hm : meanTop infos b mid c with
      | none => simp
      | some y => simp
    · intro x hx
      rw [List.map_cons, List.mem_cons, not_or] at hx
      rw [g8 x hx.2, List.getElem?_set_ne (fun h => hx.1 h.symm)]
    · intro hnd k r' b' hk
      rw [List.map_cons, List.nodup_cons] at hnd
      match k with
      | 0 =>
        simp only [List.getElem?_cons_zero, Option.some.injEq, Prod.mk.injEq] at hk
        obtain ⟨rfl, rfl⟩ := hk
        refine ⟨st[r], mid, c, List.getElem?_eq_getElem hlt, rfl, ?_, e1, e2⟩
        rw [g8 r hnd.1, List.getElem?_set_self hlt]
      | k + 1 =>
        rw [List.getElem?_cons_succ] at hk
        obtain ⟨v, mid', c', i1, i2, i3, i4⟩ := g9 hnd.2 k r' b' hk
        have hne : r ≠ r' := by
          rintro rfl
          exact hnd.1 (List.mem_map.2 ⟨_, List.mem_of_getElem? hk, rfl⟩)
        rw [List.getElem?_set_ne hne] at i1
        exact ⟨v, mid', c', i1, by rw [List.getElem?_cons_succ]; exact i2, i3, i4⟩

open Classical in
theorem meanPass_ok (infos : List WordInfo) (hs : InfosSorted infos) (meanline : Nat) (hml : meanline + 1 < W32)
    (l : List (Nat × Box)) (st : List (List View)) (hr : ∀ e ∈ l, e.1 < st.length) (hst : StOk st)
    (hb : ∀ e ∈ l, BoxOk e.2) :
    ∃ st', meanPass infos meanline l st = .ok st' ∧ st'.length = st.length ∧
      (∀ r, r ∉ l.map Prod.fst → st'[r]? = st[r]?) ∧
      ((l.map Prod.fst).Nodup → ∀ (r : Nat) (b : Box), (r, b) ∈ l →
        ∃ v mid c, st[r]? = some v ∧ st'[r]? = some mid ∧
          filterLine (wordPred infos WordLines.mean b.y meanline) v = .ok (mid, c) ∧
          LineFiltered (fun x => decide (Wrong infos WordLines.mean b.y meanline x)) v mid c) := by
  induction l generalizing st with
  | nil =>
    exact ⟨st, rfl, rfl, fun _ _ => rfl, fun _ r b hk => absurd hk (by simp)⟩
  | cons e l ih =>
    obtain ⟨r, b⟩ := e
    have hlt := hr (r, b) List.mem_cons_self
    simp only at hlt
    have hbo := (hb (r, b) List.mem_cons_self).bottom
    obtain ⟨mid, c, e1, e2⟩ := filterLine_ok (pred := wordPred infos WordLines.mean b.y meanline)
      (p := fun x => decide (Wrong infos WordLines.mean b.y meanline x))
      (wordPred_ok infos hs _ _ _ (by simp only at hbo; omega) hml)
      (fun u v huv => by simp only [wrong_byWord infos _ _ _ u v huv]) st[r] (hst _ (List.getElem_mem hlt))
    have hmid : mid.length < W32 := by
      have := lineFiltered_len e2
      have := hst _ (List.getElem_mem hlt)
      omega
    obtain ⟨st', g1, g2, g8, g9⟩ := ih (st.set r mid)
      (fun e he => by rw [List.length_set]; exact hr e (List.mem_cons_of_mem _ he))
      (stOk_set hst r mid hmid) (fun e he => hb e (List.mem_cons_of_mem _ he))
    refine ⟨st', ?_, by rw [g2, List.length_set], ?_, ?_⟩
    · unfold meanPass
      rw [rd_of_lt hlt, Res.ok_bind, e1, Res.ok_bind]
      exact g1
    · intro x hx
      rw [List.map_cons, List.mem_cons, not_or] at hx
      rw [g8 x hx.2, List.getElem?_set_ne (fun h => hx.1 h.symm)]
    · intro hnd r' b' hk
      rw [List.map_cons, List.nodup_cons] at hnd
      rcases List.mem_cons.1 hk with hk | hk
      · simp only [Prod.mk.injEq] at hk
        obtain ⟨rfl, rfl⟩ := hk
        refine ⟨st[r'], mid, c, List.getElem?_eq_getElem hlt, ?_, e1, e2⟩
        rw [g8 _ hnd.1, List.getElem?_set_self hlt]
      · obtain ⟨v, mid', c', i1, i3, i4⟩ := g9 hnd.2 r' b' hk
        have hne : r ≠ r' := by
          rintro rfl
          exact hnd.1 (List.mem_map.2 ⟨_, hk, rfl⟩)
        rw [List.getElem?_set_ne hne] at i1
        exact ⟨v, mid', c', i1, i3, i4⟩

theorem mode_unique {ys : List Nat} {a b : Nat} (ha : IsMode ys a) (hb : IsMode ys b) : a = b := by
  have h1 := ha.2 b
  have h2 := hb.2 a
  have := h1.2 (by omega) hb.1
  have := h2.2 (by omega) ha.1
  omega

theorem zeroFirst_hist {n lo lo' bl tl : Nat} {ys zs : List Nat} (h : Hist n lo ys zs) (hlen : ys.length = n)
    (hn : n = max bl tl) (hz : ∀ z ∈ zs, lo ≤ z ∧ z - lo < bl) :
    (zeroFirst (min bl tl) ys).length = n ∧ Hist tl lo' (zeroFirst (min bl tl) ys) [] := by
  have hl : (zeroFirst (min bl tl) ys).length = n := by
    unfold zeroFirst
    rw [List.length_append, List.length_replicate, List.length_drop]
    omega
  refine ⟨hl, ⟨by omega, ?_⟩⟩
  intro k hk
  rw [List.count_nil]
  unfold zeroFirst
  by_cases hm : k < min bl tl
  · rw [List.getElem?_append_left (by rw [List.length_replicate]; omega), List.getElem?_replicate,
      if_pos (by omega)]
  · rw [List.getElem?_append_right (by rw [List.length_replicate]; omega), List.length_replicate,
      List.getElem?_drop, show min bl tl + (k - min (min bl tl) ys.length) = k by omega,
      h.cell k (by omega)]
    congr 1
    rw [List.count_eq_zero]
    intro hmem
    have := hz _ hmem
    omega

theorem zip_zip_filterMap {α β γ δ : Type} (as : List α) (bs : List β) (cs : List γ) (f : β → γ → Option δ)
    (h : as.length = bs.length) :
    ((as.zip bs).zip cs).filterMap (fun e => f e.1.2 e.2) = (bs.zip cs).filterMap fun e => f e.1 e.2 := by
  induction as generalizing bs cs with
  | nil =>
    cases bs with
    | nil => rfl
    | cons => simp at h
  | cons a as ih =>
    cases bs with
    | nil => simp at h
    | cons b bs =>
      cases cs with
      | nil => rfl
      | cons c cs =>
        simp only [List.zip_cons_cons, List.filterMap_cons]
        rw [ih bs cs (by simpa using h)]

open Classical in
theorem filterByLines_ok (infos : List WordInfo) (hs : InfosSorted infos) (b : Box) (bs : List Box)
    (refs : List Nat) (st : List (List View)) (hb : ∀ c ∈ b :: bs, BoxOk c) (hsp : Spread b bs)
    (hlen : (b :: bs).length = refs.length) (hn : refs.length < W32) (hr : RefsOk refs st) (hst : StOk st) :
    ∃ st' baseline mean, ∃ mids : List (List View × Nat),
      filterByLines infos (b :: bs) refs st = .ok st' ∧ st'.length = st.length ∧
      IsMode ((b :: bs).map Box.bottom) baseline ∧ mids.length = refs.length ∧
      (meanTops infos (b :: bs) mids ≠ [] → IsMode (meanTops infos (b :: bs) mids) mean) ∧
      (∀ r, r ∉ refs → st'[r]? = st[r]?) ∧
      (refs.Nodup → ∀ (k r : Nat) (c : Box), refs[k]? = some r → (b :: bs)[k]? = some c →
        ∃ v mid n, st[r]? = some v ∧ mids[k]? = some (mid, n) ∧
          filterLine (wordPred infos WordLines.base c.bottom baseline) v = .ok (mid, n) ∧
          LineFiltered (fun x => decide (Wrong infos WordLines.base c.bottom baseline x)) v mid n ∧
          (meanTops infos (b :: bs) mids = [] → st'[r]? = some mid) ∧
          (meanTops infos (b :: bs) mids ≠ [] → ∃ l n', st'[r]? = some l ∧
            filterLine (wordPred infos WordLines.mean c.y mean) mid = .ok (l, n') ∧
            LineFiltered (fun x => decide (Wrong infos WordLines.mean c.y mean x)) mid l n')) := by
  have R := range_ok b bs hb hsp
  have hbox : ∀ e ∈ refs.zip (b :: bs), e.1 ∈ refs ∧ e.2 ∈ b :: bs := by
    intro e he
    exact List.of_mem_zip (a := e.1) (b := e.2) he
  unfold filterByLines
  rw [show (decide ((b :: bs).length = refs.length)) = true from decide_eq_true hlen]
  rw [show assert true = .ok () from rfl, Res.ok_bind]
  simp only []
  generalize hm : minMaxBox b bs = m at *
  have hbl : m.bufLen = max m.bottomLen m.topLen := rfl
  have hinit : Hist m.bufLen m.minBottom (List.replicate m.bufLen 0) [] := by
    refine ⟨by rw [List.length_replicate]; exact Nat.le_refl _, ?_⟩
    intro k hk
    rw [List.getElem?_replicate, if_pos hk]
    rfl
  obtain ⟨ys, e1, e2, e3⟩ := bumpBottoms_ok (b :: bs) _ _ hinit (by
    intro c hc
    have h1 := R.bottom c hc
    have h2 := (hb c hc).bottom
    exact ⟨h1.1, by omega, by omega⟩) (by
    rw [List.length_nil, Nat.zero_add, hlen]; exact hn)
  rw [List.nil_append] at e3
  rw [List.length_replicate] at e2
  rw [e1, Res.ok_bind]
  have hbots : ∀ z ∈ (b :: bs).map Box.bottom, m.minBottom ≤ z ∧ z - m.minBottom < m.bottomLen := by
    intro z hz
    obtain ⟨c, hc, rfl⟩ := List.mem_map.1 hz
    exact R.bottom c hc
  have hist2 : Hist m.bottomLen m.minBottom ys ((b :: bs).map Box.bottom) :=
    ⟨by omega, fun k hk => e3.cell k (by omega)⟩
  have hmode := mode_of_hist hist2 (by simp) hbots
  have hbase : m.minBottom + maxIndex (ys.take m.bottomLen) + 1 < W32 := by
    obtain ⟨c, hc, e⟩ := List.mem_map.1 hmode.1
    have := (hb c hc).bottom
    omega
  have ebase : uadd (maxIndex (ys.take m.bottomLen)) m.minBottom = m.minBottom + maxIndex (ys.take m.bottomLen) := by
    rw [uadd_eq (by omega), Nat.add_comm]
  rw [ebase]
  generalize m.minBottom + maxIndex (ys.take m.bottomLen) = baseline at *
  obtain ⟨z1, z2⟩ := zeroFirst_hist (lo' := m.minTop) e3 e2 hbl hbots
  obtain ⟨st1, map1, has1, mids, f1, f2, f3, f4, f5, f6, f7, f8, f9⟩ :=
    basePass_ok infos hs baseline hbase (refs.zip (b :: bs)) st _ [] false (fun e he => hr _ (hbox e he).1) hst
      (fun e he => ⟨(R.top _ (hbox e he).2).1, (R.top _ (hbox e he).2).2, hb _ (hbox e he).2⟩) z2 (by
        rw [List.length_nil, List.length_zip]; omega)
  rw [f1, Res.ok_bind]
  have hzl : (refs.zip (b :: bs)).length = refs.length := by rw [List.length_zip, hlen]; omega
  have htops : ((refs.zip (b :: bs)).zip mids).filterMap (fun e => meanTop infos e.1.2 e.2.1 e.2.2) =
      meanTops infos (b :: bs) mids :=
    zip_zip_filterMap refs (b :: bs) mids (fun c e => meanTop infos c e.1 e.2) hlen.symm
  rw [htops] at f6 f7
  rw [List.nil_append] at f6
  rw [Bool.false_or] at f7
  have hfst : (refs.zip (b :: bs)).map Prod.fst = refs := List.map_fst_zip (by omega)
  rw [hfst] at f8 f9
  have hget : ∀ (k r : Nat) (c : Box), refs[k]? = some r → (b :: bs)[k]? = some c →
      (refs.zip (b :: bs))[k]? = some (r, c) := by
    intro k r c h1 h2
    rw [List.getElem?_zip_eq_some]
    exact ⟨h1, h2⟩
  have hmem : ∀ z ∈ meanTops infos (b :: bs) mids, m.minTop ≤ z ∧ z - m.minTop < m.topLen ∧ z + 2 < W32 := by
    intro z hz
    obtain ⟨e, he, h2⟩ := List.mem_filterMap.1 hz
    have hc := (List.of_mem_zip (a := e.1) (b := e.2) he).1
    unfold meanTop at h2
    split at h2
    · cases h2
      exact ⟨(R.top _ hc).1, (R.top _ hc).2, (hb _ hc).bottom.2.2⟩
    · exact absurd h2 (by simp)
  by_cases ht : meanTops infos (b :: bs) mids = []
  · have hhas : has1 = false := by rw [f7, ht]; rfl
    refine ⟨st1, baseline, 0, mids, ?_, f2, hmode, by rw [f4, hzl], fun h => absurd ht h, f8, ?_⟩
    · unfold meanIf
      rw [hhas]
      rfl
    · intro hnd k r c h1 h2
      obtain ⟨v, mid, n, g1, g2, g3, g4, g5⟩ := f9 hnd k r c (hget k r c h1 h2)
      exact ⟨v, mid, n, g1, g2, g4, g5, fun _ => g3, fun h => absurd ht h⟩
  · have hhas : has1 = true := by rw [f7]; simpa using ht
    have hmode2 := mode_of_hist f6 ht (fun z hz => ⟨(hmem z hz).1, (hmem z hz).2.1⟩)
    have hml := (hmem _ hmode2.1).2.2
    have emean : uadd (maxIndex (map1.take m.topLen)) m.minTop = m.minTop + maxIndex (map1.take m.topLen) := by
      rw [uadd_eq (by omega), Nat.add_comm]
    generalize hmn : m.minTop + maxIndex (map1.take m.topLen) = mean at *
    obtain ⟨st2, g1, g2, g3, g4⟩ := meanPass_ok infos hs mean (by omega) (refs.zip (b :: bs)) st1
      (fun e he => by rw [f2]; exact hr _ (hbox e he).1) f3 (fun e he => hb _ (hbox e he).2)
    rw [hfst] at g3 g4
    refine ⟨st2, baseline, mean, mids, ?_, by rw [g2, f2], hmode, by rw [f4, hzl], fun _ => hmode2, ?_, ?_⟩
    · unfold meanIf
      rw [hhas, if_pos rfl, emean]
      exact g1
    · intro r hr'
      rw [g3 r hr', f8 r hr']
    · intro hnd k r c h1 h2
      have hz := hget k r c h1 h2
      obtain ⟨v, mid, n, i1, i2, i3, i4, i5⟩ := f9 hnd k r c hz
      obtain ⟨v', l, n', j1, j2, j3, j4⟩ := g4 hnd r c (List.mem_of_getElem? hz)
      rw [i3] at j1
      cases j1
      exact ⟨v, mid, n, i1, i2, i4, i5, fun h => absurd h ht, fun _ => ⟨l, n', j2, j3, j4⟩⟩

end Ppocr

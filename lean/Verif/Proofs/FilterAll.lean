import Verif.Spec.FilterAll
import Verif.Proofs.FilterPass

/-! # Helper lemmas: `filter_by_lines` on all lines -/

namespace Ppocr
open Spec

theorem least_ok (f : Box → Nat) (b : Box) (bs : List Box) :
    (∀ c ∈ b :: bs, least f b bs ≤ f c) ∧ ∃ d ∈ b :: bs, least f b bs = f d := by
  obtain ⟨a1, a2, a3⟩ := foldl_min (bs.map f) (f b)
  unfold least
  refine ⟨?_, ?_⟩
  · intro c hc
    rcases List.mem_cons.1 hc with rfl | hc
    · exact a1
    · exact a2 _ (List.mem_map_of_mem hc)
  · rcases a3 with h | h
    · exact ⟨b, List.mem_cons_self, h⟩
    · obtain ⟨d, hd, e⟩ := List.mem_map.1 h
      exact ⟨d, List.mem_cons_of_mem _ hd, e.symm⟩

/-- The length of the histogram of a coordinate. -/
theorem coord_len (f : Box → Nat) (b : Box) (bs : List Box) (hf : ∀ c ∈ b :: bs, f c + 2 < W32) (hne : bs ≠ []) :
    (∀ z, least f b bs ≤ z →
      (z - least f b bs < uadd (usub ((bs.map f).foldl max 0) (least f b bs)) 1 ↔ sees f bs z = true)) ∧
    ∃ c ∈ bs, uadd (usub ((bs.map f).foldl max 0) (least f b bs)) 1 = f c - least f b bs + 1 := by
  obtain ⟨l1, d, hd, l2⟩ := least_ok f b bs
  obtain ⟨b1, b2, b3⟩ := foldl_max (bs.map f) 0
  obtain ⟨x, hx⟩ := List.exists_mem_of_ne_nil _ hne
  have hx1 := b2 _ (List.mem_map_of_mem (f := f) hx)
  have hx2 := l1 x (List.mem_cons_of_mem _ hx)
  have hhi : ∃ c ∈ bs, (bs.map f).foldl max 0 = f c := by
    rcases b3 with h | h
    · exact ⟨x, hx, by omega⟩
    · obtain ⟨c, hc, e⟩ := List.mem_map.1 h
      exact ⟨c, hc, e.symm⟩
  obtain ⟨c, hc, ec⟩ := hhi
  generalize least f b bs = lo at *
  generalize (bs.map f).foldl max 0 = hi at *
  have hw := hf c (List.mem_cons_of_mem _ hc)
  have hw2 := hf d hd
  rw [usub_eq (by omega) (by omega), uadd_eq (by omega)]
  refine ⟨?_, c, hc, by rw [ec]⟩
  intro z hz
  unfold sees
  have he : bs.isEmpty = false := by cases bs with
    | nil => exact absurd rfl hne
    | cons => rfl
  rw [he, Bool.false_or, List.any_eq_true]
  constructor
  · intro h
    exact ⟨c, hc, by rw [decide_eq_true_eq]; omega⟩
  · rintro ⟨d, hd, h⟩
    rw [decide_eq_true_eq] at h
    have := b2 _ (List.mem_map_of_mem (f := f) hd)
    omega

/-- The positions of the boxes, for all lines. -/
structure RangeAll (b : Box) (bs : List Box) (m : MinMax) : Prop where
  minTop : m.minTop = least Box.y b bs
  minBottom : m.minBottom = least Box.bottom b bs
  top : bs ≠ [] → ∀ z, m.minTop ≤ z → (z - m.minTop < m.topLen ↔ sees Box.y bs z = true)
  bottom : bs ≠ [] → ∀ z, m.minBottom ≤ z → (z - m.minBottom < m.bottomLen ↔ sees Box.bottom bs z = true)
  topLen : bs ≠ [] → ∃ c ∈ bs, m.topLen = c.y - m.minTop + 1
  bottomLen : bs ≠ [] → ∃ c ∈ bs, m.bottomLen = c.bottom - m.minBottom + 1

theorem rangeAll_ok (b : Box) (bs : List Box) (hb : ∀ c ∈ b :: bs, BoxOk c) : RangeAll b bs (minMaxBox b bs) := by
  rw [minMaxBox_eq]
  have t := coord_len Box.y b bs (fun c hc => (hb c hc).bottom.2.2)
  have s := coord_len Box.bottom b bs (fun c hc => (hb c hc).bottom.2.1)
  exact ⟨rfl, rfl, fun h => (t h).1, fun h => (s h).1, fun h => (t h).2, fun h => (s h).2⟩

theorem sees_self {f : Box → Nat} {bs : List Box} {c : Box} (h : c ∈ bs) : sees f bs (f c) = true := by
  unfold sees
  rw [Bool.or_eq_true, List.any_eq_true]
  exact .inr ⟨c, h, by simp⟩

theorem least_nil (f : Box → Nat) (b : Box) : least f b [] = f b := rfl

theorem mode_single (x : Nat) : IsMode [x] x := by
  refine ⟨by simp, ?_⟩
  intro z
  by_cases hz : z = x
  · rw [hz]; exact ⟨Nat.le_refl _, fun _ _ => Nat.le_refl _⟩
  · rw [List.count_eq_zero_of_not_mem (by simpa using hz)]
    exact ⟨Nat.zero_le _, fun _ h => absurd h (by simpa using hz)⟩

theorem sees_nil {f : Box → Nat} (z : Nat) : sees f [] z = true := rfl

/-! ### Restricting a histogram -/

theorem hist_restrict {n k lo : Nat} {ys zs : List Nat} (h : Hist n lo ys zs) (hk : k ≤ n) (p : Nat → Bool)
    (hp : ∀ z ∈ zs, lo ≤ z ∧ (z - lo < k ↔ p z = true)) : Hist k lo ys (zs.filter p) := by
  refine ⟨by have := h.len; omega, ?_⟩
  intro j hj
  rw [h.cell j (by omega)]
  by_cases hm : lo + j ∈ zs
  · rw [List.count_filter ((hp _ hm).2.1 (by omega))]
  · rw [List.count_eq_zero_of_not_mem hm, List.count_eq_zero_of_not_mem (fun h => hm (List.mem_filter.1 h).1)]

theorem maxIndex_allZero (l : List Nat) (h : ∀ x ∈ l, x = 0) : maxIndex l = 0 := by
  by_cases hne : l = []
  · rw [hne]; rfl
  · obtain ⟨m, h1, h2⟩ := maxIndex_ok l hne
    have h0 : l[0]? = some 0 := by
      cases l with
      | nil => exact absurd rfl hne
      | cons x l => rw [h x List.mem_cons_self]; rfl
    have hm := h m (List.mem_of_getElem? h1)
    have := (h2 0 0 h0).2 hm.symm
    omega

theorem maxIndex_single {n k lo : Nat} {ys : List Nat} (h : Hist n lo ys [lo]) (hk : k ≤ n) : maxIndex (ys.take k) = 0 := by
  by_cases h0 : k = 0
  · rw [h0, List.take_zero]
    rfl
  · have hm := mode_of_hist (n := k) (lo := lo) (ys := ys) (zs := [lo])
      ⟨by have := h.len; omega, fun j hj => h.cell j (by omega)⟩ (by simp) (by
        intro z hz
        rw [List.mem_singleton] at hz
        omega)
    have := hm.1
    rw [List.mem_singleton] at this
    omega

/-- The buffer after the call of `fill`, as a histogram of tops. -/
theorem zeroFirst_left {n lo lo' k : Nat} {ys zs : List Nat} (h : Hist n lo ys zs) (hlen : ys.length = n)
    (hk : k ≤ n) (hz : ∀ z ∈ zs, lo ≤ z ∧ z - lo < n) :
    (zeroFirst k ys).length = n ∧
    Hist n lo' (zeroFirst k ys) ((zs.filter fun z => decide (k ≤ z - lo)).map fun z => lo' + (z - lo)) := by
  have hl : (zeroFirst k ys).length = n := by
    unfold zeroFirst
    rw [List.length_append, List.length_replicate, List.length_drop]
    omega
  refine ⟨hl, ⟨by omega, ?_⟩⟩
  intro j hj
  have hcount : ((zs.filter fun z => decide (k ≤ z - lo)).map fun z => lo' + (z - lo)).count (lo' + j) =
      if k ≤ j then zs.count (lo + j) else 0 := by
    clear h
    induction zs with
    | nil => simp
    | cons z zs ih =>
      have := ih fun z hz' => hz z (List.mem_cons_of_mem _ hz')
      have hz0 := hz z List.mem_cons_self
      rw [List.filter_cons, List.count_cons]
      by_cases hkz : k ≤ z - lo
      · rw [if_pos (by simpa using hkz), List.map_cons, List.count_cons, this]
        by_cases hkj : k ≤ j
        · rw [if_pos hkj, if_pos hkj]
          congr 1
          by_cases he : z = lo + j
          · rw [if_pos (by simp; omega), if_pos (by simpa using he)]
          · rw [if_neg (by simp; omega), if_neg (by simpa using he)]
        · rw [if_neg hkj, if_neg hkj, if_neg (by simp; omega)]
      · rw [if_neg (by simpa using hkz), this]
        by_cases hkj : k ≤ j
        · rw [if_pos hkj, if_pos hkj, if_neg (by simp; omega)]
          rfl
        · rw [if_neg hkj, if_neg hkj]
  rw [hcount]
  unfold zeroFirst
  by_cases hm : j < k
  · rw [List.getElem?_append_left (by rw [List.length_replicate]; omega), List.getElem?_replicate,
      if_pos (by omega), if_neg (by omega)]
  · rw [List.getElem?_append_right (by rw [List.length_replicate]; omega), List.length_replicate,
      List.getElem?_drop, show k + (j - min k ys.length) = j by omega, h.cell j (by omega), if_pos (by omega)]

/-! ### One step of the first pass -/

theorem countMean_none (infos : List WordInfo) (hs : InfosSorted infos) {lo : Nat} (b : Box) (l : List View)
    (c : Nat) (hne : c = 1 → l ≠ []) (map : List Nat) (has : Bool) (h : meanTop infos b l c = none) :
    countMean infos lo b l c map has = .ok (map, has) := by
  unfold meanTop at h
  unfold countMean
  by_cases hc : c = 1
  · rw [if_pos hc]
    match l, hne hc with
    | v :: l, _ =>
      rw [show rd (v :: l) 0 = .ok v from rfl, Res.ok_bind, infosGet_ok infos v.word hs, Res.ok_bind]
      cases hv : lookup infos v.word with
      | none => rfl
      | some e =>
        simp only []
        by_cases hd : e.lines.base = 2 ∧ e.lines.mean = 2
        · rw [if_pos ⟨hc, v, e, rfl, hv, hd⟩] at h
          exact absurd h (by simp)
        · rw [if_neg hd]
          rfl
  · rw [if_neg hc]

theorem countMean_ub (infos : List WordInfo) (hs : InfosSorted infos) {lo : Nat} (b : Box) (l : List View)
    (c : Nat) (map : List Nat) (has : Bool) (h : meanTop infos b l c ≠ none) (h1 : lo ≤ b.y) (hy : b.y < W32)
    (h2 : map.length ≤ b.y - lo) : countMean infos lo b l c map has = .ub := by
  unfold meanTop at h
  unfold countMean
  split at h
  · rename_i hx
    obtain ⟨hc, v, e, h0, hv, hd⟩ := hx
    rw [if_pos hc]
    match l, h0 with
    | v' :: l, h0 =>
      cases h0
      rw [show rd (v :: l) 0 = .ok v from rfl, Res.ok_bind, infosGet_ok infos v.word hs, Res.ok_bind, hv]
      simp only []
      rw [if_pos hd]
      unfold bumpAt
      rw [usub_eq (by omega) h1, rd_of_ge h2]
      rfl
  · exact absurd rfl h

/-- What stays in the buffer below the last top. -/
theorem left_eq {b : Box} {bs : List Box} {m : MinMax} (R : RangeAll b bs m)
    (hne : bs ≠ []) :
    ((((b :: bs).map Box.bottom).filter fun z => decide (min m.bottomLen m.topLen ≤ z - m.minBottom)).map fun z =>
      m.minTop + (z - m.minBottom)).filter (sees Box.y bs) = leftTops b bs := by
  have hlow : ∀ c ∈ b :: bs, m.minBottom ≤ c.bottom := by
    rw [R.minBottom]; exact (least_ok Box.bottom b bs).1
  have htop : ∀ k, (sees Box.y bs (m.minTop + k) = true ↔ k < m.topLen) := by
    intro k
    rw [← R.top hne _ (Nat.le_add_right _ _), Nat.add_sub_cancel_left]
  have htail : (((bs.map Box.bottom).filter fun z => decide (min m.bottomLen m.topLen ≤ z - m.minBottom)).map fun z =>
      m.minTop + (z - m.minBottom)).filter (sees Box.y bs) = [] := by
    rw [List.filter_eq_nil_iff]
    intro a ha
    obtain ⟨z, hz, rfl⟩ := List.mem_map.1 ha
    obtain ⟨hz, hk⟩ := List.mem_filter.1 hz
    obtain ⟨c, hc, rfl⟩ := List.mem_map.1 hz
    rw [decide_eq_true_eq] at hk
    have := (R.bottom hne _ (hlow c (List.mem_cons_of_mem _ hc))).2 (sees_self hc)
    rw [htop]
    omega
  rw [List.map_cons, List.filter_cons]
  unfold leftTops
  have hbb := R.bottom hne _ (hlow b List.mem_cons_self)
  rw [← R.minTop, ← R.minBottom]
  by_cases hs : sees Box.bottom bs b.bottom = true
  · rw [if_pos hs]
    have := hbb.2 hs
    by_cases hk : min m.bottomLen m.topLen ≤ b.bottom - m.minBottom
    · rw [if_pos (by simpa using hk), List.map_cons, List.filter_cons, if_neg (by rw [htop]; omega), htail]
    · rw [if_neg (by simpa using hk), htail]
  · rw [if_neg hs]
    have : ¬ b.bottom - m.minBottom < m.bottomLen := fun h => hs (hbb.1 h)
    rw [if_pos (by simp; omega), List.map_cons, List.filter_cons, htail, List.filter_cons, List.filter_nil]

/-- A write at any place of the buffer. -/
theorem bumpAt_any {n lo : Nat} {ys zs : List Nat} (h : Hist n lo ys zs) (y : Nat) (h1 : lo ≤ y)
    (h2 : y - lo < ys.length) (hy : y < W32) (hz : zs.length + 1 < W32) (p : Nat → Bool)
    (hp : y - lo < n ↔ p y = true) :
    ∃ ys', bumpAt ys (usub y lo) = .ok ys' ∧ ys'.length = ys.length ∧ Hist n lo ys' (zs ++ [y].filter p) := by
  by_cases hn : y - lo < n
  · rw [List.filter_cons, if_pos (hp.1 hn)]
    exact bumpAt_ok h y h1 hn hy hz
  · rw [List.filter_cons, if_neg (fun h => hn (hp.2 h)), List.filter_nil, List.append_nil]
    unfold bumpAt
    rw [usub_eq (by omega) h1, rd_of_lt h2, Res.ok_bind]
    refine ⟨_, rfl, List.length_set .., ⟨by rw [List.length_set]; exact h.len, ?_⟩⟩
    intro k hk
    rw [List.getElem?_set_ne (by omega)]
    exact h.cell k hk

theorem meanTop_eq {infos : List WordInfo} {b : Box} {l : List View} {c z : Nat} (h : meanTop infos b l c = some z) :
    z = b.y := by
  unfold meanTop at h
  split at h
  · exact (Option.some.inj h).symm
  · exact absurd h (by simp)

theorem countMean_any (infos : List WordInfo) (hs : InfosSorted infos) {n lo : Nat} (b : Box) (l : List View)
    (c : Nat) (hne : c = 1 → l ≠ []) (map zs : List Nat) (has : Bool) (h : Hist n lo map zs) (h1 : lo ≤ b.y)
    (h2 : meanTop infos b l c = none ∨ b.y - lo < map.length) (hy : b.y < W32) (hz : zs.length + 1 < W32) (p : Nat → Bool)
    (hp : b.y - lo < n ↔ p b.y = true) :
    ∃ map' has', countMean infos lo b l c map has = .ok (map', has') ∧ map'.length = map.length ∧
      Hist n lo map' (zs ++ (meanTop infos b l c).toList.filter p) ∧
      has' = (has || (meanTop infos b l c).isSome) := by
  by_cases hm : meanTop infos b l c = none
  · refine ⟨map, has, countMean_none infos hs b l c hne map has hm, rfl, ?_, ?_⟩
    · rw [hm]; simpa using h
    · rw [hm]; simp
  · have hlt : b.y - lo < map.length := h2.resolve_left hm
    obtain ⟨m', e1, e2, e3⟩ := bumpAt_any h b.y h1 hlt hy hz p hp
    have hx : meanTop infos b l c = some b.y := by
      cases he : meanTop infos b l c with
      | none => exact absurd he hm
      | some z => rw [meanTop_eq he]
    rw [hx]
    unfold meanTop at hx
    split at hx
    · rename_i hq
      obtain ⟨hc, v, e, h0, hv, hd⟩ := hq
      unfold countMean
      rw [if_pos hc]
      match l, h0 with
      | v' :: l, h0 =>
        cases h0
        rw [show rd (v :: l) 0 = .ok v from rfl, Res.ok_bind, infosGet_ok infos v.word hs, Res.ok_bind, hv]
        simp only []
        rw [if_pos hd, e1, Res.ok_bind]
        exact ⟨m', true, rfl, e2, e3, by simp⟩
    · exact absurd hx (by simp)

theorem meanTops_mem {infos : List WordInfo} {bs : List Box} {mids : List (List View × Nat)} {z : Nat}
    (h : z ∈ meanTops infos bs mids) : ∃ c ∈ bs, z = c.y := by
  obtain ⟨e, he, h2⟩ := List.mem_filterMap.1 h
  exact ⟨e.1, (List.of_mem_zip (a := e.1) (b := e.2) he).1, meanTop_eq h2⟩

theorem meanTops_cons (infos : List WordInfo) (b : Box) (bs : List Box) (mid : List View) (n : Nat)
    (mids : List (List View × Nat)) :
    meanTops infos (b :: bs) ((mid, n) :: mids) = (meanTop infos b mid n).toList ++ meanTops infos bs mids := by
  unfold meanTops
  rw [List.zip_cons_cons, List.filterMap_cons]
  cases meanTop infos b mid n <;> rfl

theorem filterByLines_split (infos : List WordInfo) (b : Box) (bs : List Box) (refs : List Nat) (st : List (List View))
    (hlen : (b :: bs).length = refs.length) :
    filterByLines infos (b :: bs) refs st = (do
      let ys ← bumpBottoms (minMaxBox b bs).minBottom (b :: bs) (List.replicate (minMaxBox b bs).bufLen 0)
      let (st, map, has) ← basePass infos
        (uadd (maxIndex (ys.take (minMaxBox b bs).bottomLen)) (minMaxBox b bs).minBottom) (minMaxBox b bs).minTop
        (refs.zip (b :: bs)) st (zeroFirst (min (minMaxBox b bs).bottomLen (minMaxBox b bs).topLen) ys) false
      meanIf infos (minMaxBox b bs) (refs.zip (b :: bs)) st map has) := by
  unfold filterByLines
  rw [show (decide ((b :: bs).length = refs.length)) = true from decide_eq_true hlen,
    show assert true = .ok () from rfl, Res.ok_bind]

open Classical in
/-- `filter_by_lines` when the first box has a cell for its bottom. -/
theorem filterByLines_all (infos : List WordInfo) (hs : InfosSorted infos) (b : Box) (bs : List Box) (r : Nat)
    (rs : List Nat) (st : List (List View)) (hb : ∀ c ∈ b :: bs, BoxOk c)
    (hlow : b.bottom - (minMaxBox b bs).minBottom < (minMaxBox b bs).bufLen)
    (hlen : (b :: bs).length = (r :: rs).length) (hn : (r :: rs).length + 1 < W32) (hr : RefsOk (r :: rs) st) (hst : StOk st) :
    ∃ baseline v0 mid0 n0, IsMode (seenBottoms b bs) baseline ∧ st[r]? = some v0 ∧
      filterLine (wordPred infos WordLines.base b.bottom baseline) v0 = .ok (mid0, n0) ∧
      LineFiltered (fun x => decide (Wrong infos WordLines.base b.bottom baseline x)) v0 mid0 n0 ∧
      ((meanTop infos b mid0 n0 ≠ none ∧ (minMaxBox b bs).bufLen ≤ b.y - (minMaxBox b bs).minTop) →
        filterByLines infos (b :: bs) (r :: rs) st = .ub) ∧
      ((meanTop infos b mid0 n0 = none ∨ b.y - (minMaxBox b bs).minTop < (minMaxBox b bs).bufLen) →
      ∃ st' mean, ∃ mids : List (List View × Nat),
      filterByLines infos (b :: bs) (r :: rs) st = .ok st' ∧ st'.length = st.length ∧
      mids.length = (r :: rs).length ∧ IsMean infos b bs mids mean ∧
      (∀ q, q ∉ r :: rs → st'[q]? = st[q]?) ∧
      ((r :: rs).Nodup → ∀ (k q : Nat) (c : Box), (r :: rs)[k]? = some q → (b :: bs)[k]? = some c →
        ∃ v mid n, st[q]? = some v ∧ mids[k]? = some (mid, n) ∧
          filterLine (wordPred infos WordLines.base c.bottom baseline) v = .ok (mid, n) ∧
          LineFiltered (fun x => decide (Wrong infos WordLines.base c.bottom baseline x)) v mid n ∧
          (meanTops infos (b :: bs) mids = [] → st'[q]? = some mid) ∧
          (meanTops infos (b :: bs) mids ≠ [] → ∃ l n', st'[q]? = some l ∧
            filterLine (wordPred infos WordLines.mean c.y mean) mid = .ok (l, n') ∧
            LineFiltered (fun x => decide (Wrong infos WordLines.mean c.y mean x)) mid l n'))) := by
  have R := rangeAll_ok b bs hb
  have hbox : ∀ e ∈ rs.zip bs, e.1 ∈ rs ∧ e.2 ∈ bs := by
    intro e he
    exact List.of_mem_zip (a := e.1) (b := e.2) he
  simp only [List.length_cons] at hlen hn
  have hlen' : bs.length = rs.length := by omega
  rw [filterByLines_split infos b bs (r :: rs) st (by simp [hlen'])]
  generalize minMaxBox b bs = m at *
  have hbl : m.bufLen = max m.bottomLen m.topLen := rfl
  have hlowT : ∀ c ∈ b :: bs, m.minTop ≤ c.y := by rw [R.minTop]; exact (least_ok Box.y b bs).1
  have hlowB : ∀ c ∈ b :: bs, m.minBottom ≤ c.bottom := by rw [R.minBottom]; exact (least_ok Box.bottom b bs).1
  have hminT : m.minTop + 2 < W32 := by
    obtain ⟨d, hd, e⟩ := (least_ok Box.y b bs).2
    rw [R.minTop, e]; exact (hb d hd).bottom.2.2
  have hbuf : ∀ c ∈ b :: bs, c.bottom - m.minBottom < m.bufLen := by
    intro c hc
    rcases List.mem_cons.1 hc with rfl | hc'
    · exact hlow
    · have := (R.bottom (List.ne_nil_of_mem hc') _ (hlowB c hc)).2 (sees_self hc')
      omega
  have hinit : Hist m.bufLen m.minBottom (List.replicate m.bufLen 0) [] := by
    refine ⟨by rw [List.length_replicate]; exact Nat.le_refl _, ?_⟩
    intro k hk
    rw [List.getElem?_replicate, if_pos hk]
    rfl
  obtain ⟨ys, e1, e2, e3⟩ := bumpBottoms_ok (b :: bs) _ _ hinit (by
    intro c hc
    have h2 := (hb c hc).bottom
    exact ⟨hlowB c hc, hbuf c hc, by omega⟩) (by
    rw [List.length_nil, Nat.zero_add, List.length_cons]; omega)
  rw [List.nil_append] at e3
  rw [List.length_replicate] at e2
  rw [e1, Res.ok_bind]
  -- the baseline
  have hmode : IsMode (seenBottoms b bs) (m.minBottom + maxIndex (ys.take m.bottomLen)) := by
    unfold seenBottoms
    by_cases hne : bs = []
    · subst hne
      have hmb : m.minBottom = b.bottom := R.minBottom.trans (least_nil _ _)
      rw [List.map_cons, List.map_nil] at e3 ⊢
      rw [← hmb] at e3 ⊢
      rw [maxIndex_single e3 (by omega), Nat.add_zero, List.filter_cons, if_pos (sees_nil _), List.filter_nil]
      exact mode_single _
    · have hall : ∀ z ∈ (b :: bs).map Box.bottom, m.minBottom ≤ z ∧ (z - m.minBottom < m.bottomLen ↔ sees Box.bottom bs z = true) := by
        intro z hz
        obtain ⟨c, hc, rfl⟩ := List.mem_map.1 hz
        exact ⟨hlowB c hc, R.bottom hne _ (hlowB c hc)⟩
      refine mode_of_hist (hist_restrict e3 (by omega) _ hall) ?_ ?_
      · obtain ⟨c, hc⟩ := List.exists_mem_of_ne_nil _ hne
        exact List.ne_nil_of_mem (List.mem_filter.2 ⟨List.mem_map_of_mem (List.mem_cons_of_mem _ hc), sees_self hc⟩)
      · intro z hz
        obtain ⟨h1, h2⟩ := List.mem_filter.1 hz
        exact ⟨(hall z h1).1, (hall z h1).2.2 h2⟩
  have hbase : m.minBottom + maxIndex (ys.take m.bottomLen) + 1 < W32 := by
    obtain ⟨c, hc, e⟩ := List.mem_map.1 (List.mem_filter.1 hmode.1).1
    have := (hb c hc).bottom
    omega
  have ebase : uadd (maxIndex (ys.take m.bottomLen)) m.minBottom = m.minBottom + maxIndex (ys.take m.bottomLen) := by
    rw [uadd_eq (by omega), Nat.add_comm]
  rw [ebase]
  generalize m.minBottom + maxIndex (ys.take m.bottomLen) = baseline at *
  -- the first step
  have hr0 : r < st.length := hr r List.mem_cons_self
  have hbo := (hb b List.mem_cons_self).bottom
  obtain ⟨mid0, n0, i1, i2⟩ := filterLine_ok (pred := wordPred infos WordLines.base b.bottom baseline)
    (p := fun x => decide (Wrong infos WordLines.base b.bottom baseline x))
    (wordPred_ok infos hs _ _ _ (by omega) hbase)
    (fun u v huv => by simp only [wrong_byWord infos _ _ _ u v huv]) st[r] (hst _ (List.getElem_mem hr0))
  have hmid : mid0.length < W32 := by
    have := lineFiltered_len i2
    have := hst _ (List.getElem_mem hr0)
    omega
  refine ⟨baseline, st[r], mid0, n0, hmode, List.getElem?_eq_getElem hr0, i1, i2, ?_, ?_⟩
  · rintro ⟨h1, h2⟩
    rw [List.zip_cons_cons]
    unfold basePass
    rw [rd_of_lt hr0, Res.ok_bind, i1, Res.ok_bind]
    simp only []
    rw [countMean_ub infos hs b mid0 n0 _ _ h1 (hlowT b List.mem_cons_self) (by omega) (by
      obtain ⟨hz, _⟩ := zeroFirst_left (lo' := m.minTop) (k := min m.bottomLen m.topLen) e3 e2 (by omega) (by
        intro z hz
        obtain ⟨c, hc, rfl⟩ := List.mem_map.1 hz
        exact ⟨hlowB c hc, hbuf c hc⟩)
      rw [hz]; exact h2)]
    rfl
  intro hcond
  obtain ⟨z1, z2⟩ := zeroFirst_left (lo' := m.minTop) (k := min m.bottomLen m.topLen) e3 e2 (by omega) (by
    intro z hz
    obtain ⟨c, hc, rfl⟩ := List.mem_map.1 hz
    exact ⟨hlowB c hc, hbuf c hc⟩)
  -- a histogram of the tops that the maximum sees
  obtain ⟨p, L1, hL1, hpb, hps, hLs, hL1w, hL1nil⟩ : ∃ (p : Nat → Bool) (L1 : List Nat),
      Hist m.topLen m.minTop (zeroFirst (min m.bottomLen m.topLen) ys) L1 ∧
      (∀ c ∈ b :: bs, (c.y - m.minTop < m.topLen ↔ p c.y = true)) ∧ (bs ≠ [] → p = sees Box.y bs ∧ L1 = leftTops b bs) ∧
      L1.length ≤ 1 ∧ (∀ z ∈ L1, m.minTop ≤ z ∧ z - m.minTop < m.topLen ∧ z + 2 < W32) ∧
      (bs = [] → ∀ z ∈ L1, z = b.y) := by
    by_cases hne : bs = []
    · subst hne
      have hmt : m.minTop = b.y := R.minTop.trans (least_nil _ _)
      have hmb : m.minBottom = b.bottom := R.minBottom.trans (least_nil _ _)
      refine ⟨fun _ => decide (0 < m.topLen), _, hist_restrict z2 (by omega) (fun _ => decide (0 < m.topLen)) ?_, ?_,
        fun h => absurd rfl h, ?_, ?_, ?_⟩
      · intro z hz
        obtain ⟨y, hy, rfl⟩ := List.mem_map.1 hz
        have hy := (List.mem_filter.1 hy).1
        simp only [List.map_cons, List.map_nil, List.mem_singleton] at hy
        rw [hy, hmb]
        refine ⟨by omega, ?_⟩
        rw [decide_eq_true_eq]
        omega
      · intro c hc
        rw [List.mem_singleton] at hc
        subst hc
        rw [decide_eq_true_eq]
        omega
      · refine Nat.le_trans (List.length_filter_le _ _) ?_
        rw [List.length_map]
        exact Nat.le_trans (List.length_filter_le _ _) (by simp)
      · intro z hz
        obtain ⟨hz, hk⟩ := List.mem_filter.1 hz
        rw [decide_eq_true_eq] at hk
        obtain ⟨y, hy, rfl⟩ := List.mem_map.1 hz
        have hy := (List.mem_filter.1 hy).1
        simp only [List.map_cons, List.map_nil, List.mem_singleton] at hy
        rw [hy, hmb]
        omega
      · intro _ z hz
        obtain ⟨hz, hk⟩ := List.mem_filter.1 hz
        obtain ⟨y, hy, rfl⟩ := List.mem_map.1 hz
        have hy := (List.mem_filter.1 hy).1
        simp only [List.map_cons, List.map_nil, List.mem_singleton] at hy
        rw [hy, hmb]
        omega
    · have hx := hist_restrict z2 (k := m.topLen) (by omega) (sees Box.y bs) (by
        intro z hz
        obtain ⟨y, hy, rfl⟩ := List.mem_map.1 hz
        exact ⟨by omega, R.top hne _ (by omega)⟩)
      rw [left_eq R hne] at hx
      refine ⟨sees Box.y bs, leftTops b bs, hx, fun c hc => R.top hne _ (hlowT c hc), fun _ => ⟨rfl, rfl⟩, ?_, ?_, fun h => absurd h hne⟩
      · unfold leftTops
        split
        · simp
        · exact List.length_filter_le _ _
      · intro z hz
        unfold leftTops at hz
        split at hz
        · exact absurd hz (by simp)
        · obtain ⟨h1, h2⟩ := List.mem_filter.1 hz
          rw [List.mem_singleton, ← R.minTop] at h1
          have hle : m.minTop ≤ z := by omega
          have h3 := (R.top hne z hle).2 h2
          obtain ⟨c, hc, e⟩ := R.topLen hne
          have := (hb c (List.mem_cons_of_mem _ hc)).bottom
          have := hlowT c (List.mem_cons_of_mem _ hc)
          exact ⟨hle, h3, by omega⟩
  obtain ⟨map0, has0, c1, c2, c3, c4⟩ := countMean_any infos hs b mid0 n0 (fun hc => lineFiltered_one (hc ▸ i2)) _ L1 false
    hL1 (hlowT b List.mem_cons_self) (by rw [z1]; exact hcond) (by omega) (by omega) p (hpb b List.mem_cons_self)
  have hopt : ((meanTop infos b mid0 n0).toList.filter p).length ≤ 1 := by
    refine Nat.le_trans (List.length_filter_le _ _) ?_
    cases meanTop infos b mid0 n0 <;> simp
  obtain ⟨st1, map1, has1, mids, f1, f2, f3, f4, f5, f6, f7, f8, f9⟩ :=
    basePass_ok infos hs baseline hbase (rs.zip bs) (st.set r mid0) map0 _ has0
      (fun e he => by rw [List.length_set]; exact hr _ (List.mem_cons_of_mem _ (hbox e he).1)) (stOk_set hst r mid0 hmid)
      (fun e he => by
        have hc := (hbox e he).2
        have hne := List.ne_nil_of_mem hc
        have hc' := List.mem_cons_of_mem b hc
        exact ⟨hlowT _ hc', (R.top hne _ (hlowT _ hc')).2 (sees_self hc), hb _ hc'⟩) c3 (by
        rw [List.length_append, List.length_zip]; omega)
  have hzl : (rs.zip bs).length = rs.length := by rw [List.length_zip, hlen']; omega
  have htops : ((rs.zip bs).zip mids).filterMap (fun e => meanTop infos e.1.2 e.2.1 e.2.2) = meanTops infos bs mids :=
    zip_zip_filterMap rs bs mids (fun c e => meanTop infos c e.1 e.2) hlen'.symm
  rw [htops] at f6 f7
  have hfst : (rs.zip bs).map Prod.fst = rs := List.map_fst_zip (by omega)
  rw [hfst] at f8 f9
  -- the two parts together
  have hpass : basePass infos baseline m.minTop ((r :: rs).zip (b :: bs)) st
      (zeroFirst (min m.bottomLen m.topLen) ys) false = .ok (st1, map1, has1) := by
    rw [List.zip_cons_cons]
    unfold basePass
    rw [rd_of_lt hr0, Res.ok_bind, i1, Res.ok_bind]
    simp only []
    rw [c1, Res.ok_bind]
    exact f1
  rw [hpass, Res.ok_bind]
  simp only []
  have hall := meanTops_cons infos b bs mid0 n0 mids
  have hT : L1 ++ (meanTop infos b mid0 n0).toList.filter p ++ meanTops infos bs mids =
      L1 ++ (meanTops infos (b :: bs) ((mid0, n0) :: mids)).filter p := by
    rw [hall, List.filter_append, List.append_assoc]
    congr 2
    symm
    rw [List.filter_eq_self]
    intro z hz
    obtain ⟨c, hc, rfl⟩ := meanTops_mem hz
    have hne := List.ne_nil_of_mem hc
    rw [(hps hne).1]
    exact sees_self hc
  rw [hT] at f6
  have hhas1 : has1 = true ↔ meanTops infos (b :: bs) ((mid0, n0) :: mids) ≠ [] := by
    rw [f7, c4, hall]
    cases meanTop infos b mid0 n0 <;> simp
  have hpart : (r :: rs).Nodup → ∀ (k q : Nat) (c : Box), (r :: rs)[k]? = some q → (b :: bs)[k]? = some c →
      ∃ v mid n, st[q]? = some v ∧ ((mid0, n0) :: mids)[k]? = some (mid, n) ∧ st1[q]? = some mid ∧
        filterLine (wordPred infos WordLines.base c.bottom baseline) v = .ok (mid, n) ∧
        LineFiltered (fun x => decide (Wrong infos WordLines.base c.bottom baseline x)) v mid n := by
    intro hnd k q c h1 h2
    rw [List.nodup_cons] at hnd
    cases k with
    | zero =>
      cases h1
      cases h2
      refine ⟨st[r], mid0, n0, List.getElem?_eq_getElem hr0, rfl, ?_, i1, i2⟩
      rw [f8 r hnd.1, List.getElem?_set_self hr0]
    | succ k =>
      rw [List.getElem?_cons_succ] at h1 h2
      obtain ⟨v, mid, n, g1, g2, g3, g4⟩ := f9 hnd.2 k q c (by rw [List.getElem?_zip_eq_some]; exact ⟨h1, h2⟩)
      have hne : r ≠ q := by
        rintro rfl
        exact hnd.1 (List.mem_of_getElem? h1)
      rw [List.getElem?_set_ne hne] at g1
      exact ⟨v, mid, n, g1, by rw [List.getElem?_cons_succ]; exact g2, g3, g4⟩
  have hrest : ∀ q, q ∉ r :: rs → st1[q]? = st[q]? := by
    intro q hq
    rw [List.mem_cons, not_or] at hq
    rw [f8 q hq.2, List.getElem?_set_ne (fun h => hq.1 h.symm)]
  -- the meanline
  have hmeans : ∀ z ∈ meanTops infos (b :: bs) ((mid0, n0) :: mids), m.minTop ≤ z ∧ z + 2 < W32 ∧ (z - m.minTop < m.topLen ↔ p z = true) := by
    intro z hz
    obtain ⟨c, hc, rfl⟩ := meanTops_mem hz
    exact ⟨hlowT c hc, (hb c hc).bottom.2.2, hpb c hc⟩
  have hTm : ∀ z ∈ L1 ++ (meanTops infos (b :: bs) ((mid0, n0) :: mids)).filter p,
      m.minTop ≤ z ∧ z - m.minTop < m.topLen ∧ z + 2 < W32 := by
    intro z hz
    rcases List.mem_append.1 hz with hz | hz
    · exact hL1w z hz
    · obtain ⟨h1, h2⟩ := List.mem_filter.1 hz
      have := hmeans z h1
      exact ⟨this.1, this.2.2.2 h2, this.2.1⟩
  have hmean : IsMean infos b bs ((mid0, n0) :: mids) (m.minTop + maxIndex (map1.take m.topLen)) ∨
      meanTops infos (b :: bs) ((mid0, n0) :: mids) = [] := by
    by_cases hz : meanTops infos (b :: bs) ((mid0, n0) :: mids) = []
    · exact .inr hz
    left
    have hTmode : L1 ++ (meanTops infos (b :: bs) ((mid0, n0) :: mids)).filter p ≠ [] →
        IsMode (L1 ++ (meanTops infos (b :: bs) ((mid0, n0) :: mids)).filter p) (m.minTop + maxIndex (map1.take m.topLen)) :=
      fun h => mode_of_hist f6 h (fun z hz => ⟨(hTm z hz).1, (hTm z hz).2.1⟩)
    have hTnil : L1 ++ (meanTops infos (b :: bs) ((mid0, n0) :: mids)).filter p = [] →
        m.minTop + maxIndex (map1.take m.topLen) = m.minTop := by
      intro h
      rw [maxIndex_allZero, Nat.add_zero]
      intro x hx
      obtain ⟨k, hk⟩ := List.getElem?_of_mem hx
      rw [List.getElem?_take] at hk
      split at hk
      · rename_i hlt
        rw [f6.cell k hlt, h] at hk
        simpa using hk.symm
      · exact absurd hk (by simp)
    by_cases hne : bs = []
    · subst hne
      have hmt : m.minTop = b.y := R.minTop.trans (least_nil _ _)
      have htops' : seenTops infos b [] ((mid0, n0) :: mids) = [b.y] := by
        unfold seenTops leftTops
        rw [if_pos (sees_nil _), List.nil_append]
        rw [show meanTops infos [b] ((mid0, n0) :: mids) = (meanTop infos b mid0 n0).toList by
          rw [hall]
          rw [show meanTops infos [] mids = [] from rfl, List.append_nil]]
        have hx : meanTop infos b mid0 n0 ≠ none := by
          intro h
          apply hz
          rw [hall, h]
          rfl
        cases hm : meanTop infos b mid0 n0 with
        | none => exact absurd hm hx
        | some z => rw [meanTop_eq hm]; rfl
      have hval : m.minTop + maxIndex (map1.take m.topLen) = b.y := by
        by_cases hnil : L1 ++ (meanTops infos [b] ((mid0, n0) :: mids)).filter p = []
        · rw [hTnil hnil, hmt]
        · have := (hTmode hnil).1
          rcases List.mem_append.1 this with h | h
          · exact hL1nil rfl _ h
          · obtain ⟨c, hc, e⟩ := meanTops_mem (List.mem_filter.1 h).1
            rw [List.mem_singleton] at hc
            rw [e, hc]
      rw [hval]
      unfold IsMean
      rw [htops']
      exact ⟨fun _ => mode_single _, fun h => absurd h (by simp)⟩
    · obtain ⟨ep, eL⟩ := hps hne
      rw [ep, eL] at hTmode hTnil
      exact ⟨hTmode, fun h => by rw [hTnil h, R.minTop]⟩
  by_cases ht : meanTops infos (b :: bs) ((mid0, n0) :: mids) = []
  · have hhas : has1 = false := by
      cases h : has1 with
      | false => rfl
      | true => exact absurd ht (hhas1.1 h)
    obtain ⟨y, hy⟩ : ∃ y, IsMean infos b bs ((mid0, n0) :: mids) y := by
      by_cases hT0 : L1 ++ (meanTops infos (b :: bs) ((mid0, n0) :: mids)).filter p = []
      · by_cases hne : bs = []
        · subst hne
          refine ⟨least Box.y b [], fun h => absurd ?_ h, fun _ => rfl⟩
          unfold seenTops leftTops
          rw [if_pos (sees_nil _), ht]
          rfl
        · obtain ⟨ep, eL⟩ := hps hne
          rw [ep, eL] at hT0
          exact ⟨least Box.y b bs, fun h => absurd hT0 h, fun _ => rfl⟩
      · by_cases hne : bs = []
        · subst hne
          refine ⟨least Box.y b [], fun h => absurd ?_ h, fun _ => rfl⟩
          unfold seenTops leftTops
          rw [if_pos (sees_nil _), ht]
          rfl
        · obtain ⟨ep, eL⟩ := hps hne
          have hm := mode_of_hist f6 hT0 (fun z hz => ⟨(hTm z hz).1, (hTm z hz).2.1⟩)
          rw [ep, eL] at hm hT0
          exact ⟨_, fun _ => hm, fun h => absurd h hT0⟩
    refine ⟨st1, y, (mid0, n0) :: mids, ?_, by rw [f2, List.length_set], by simp [f4, hzl], hy, hrest, ?_⟩
    · unfold meanIf
      rw [hhas]
      rfl
    · intro hnd k q c h1 h2
      obtain ⟨v, mid, n, g1, g2, g3, g4, g5⟩ := hpart hnd k q c h1 h2
      exact ⟨v, mid, n, g1, g2, g4, g5, fun _ => g3, fun h => absurd ht h⟩
  · have hhas : has1 = true := hhas1.2 ht
    have hmean := hmean.resolve_right ht
    have hml : m.minTop + maxIndex (map1.take m.topLen) + 2 < W32 := by
      by_cases hT0 : L1 ++ (meanTops infos (b :: bs) ((mid0, n0) :: mids)).filter p = []
      · rw [maxIndex_allZero, Nat.add_zero]
        · exact hminT
        intro x hx
        obtain ⟨k, hk⟩ := List.getElem?_of_mem hx
        rw [List.getElem?_take] at hk
        split at hk
        · rename_i hlt
          rw [f6.cell k hlt, hT0] at hk
          simpa using hk.symm
        · exact absurd hk (by simp)
      · exact (hTm _ (mode_of_hist f6 hT0 (fun z hz => ⟨(hTm z hz).1, (hTm z hz).2.1⟩)).1).2.2
    have emean : uadd (maxIndex (map1.take m.topLen)) m.minTop = m.minTop + maxIndex (map1.take m.topLen) := by
      rw [uadd_eq (by omega), Nat.add_comm]
    generalize hmn : m.minTop + maxIndex (map1.take m.topLen) = mean at *
    have hbox2 : ∀ e ∈ (r :: rs).zip (b :: bs), e.1 ∈ r :: rs ∧ e.2 ∈ b :: bs := by
      intro e he
      exact List.of_mem_zip (a := e.1) (b := e.2) he
    obtain ⟨st2, g1, g2, g3, g4⟩ := meanPass_ok infos hs mean (by omega) ((r :: rs).zip (b :: bs)) st1
      (fun e he => by rw [f2, List.length_set]; exact hr _ (hbox2 e he).1) f3 (fun e he => hb _ (hbox2 e he).2)
    have hfst2 : ((r :: rs).zip (b :: bs)).map Prod.fst = r :: rs := List.map_fst_zip (by simp [hlen'])
    rw [hfst2] at g3 g4
    refine ⟨st2, mean, (mid0, n0) :: mids, ?_, by rw [g2, f2, List.length_set], by simp [f4, hzl], hmean, ?_, ?_⟩
    · unfold meanIf
      rw [hhas, if_pos rfl, emean]
      exact g1
    · intro q hq
      rw [g3 q hq, hrest q hq]
    · intro hnd k q c h1 h2
      obtain ⟨v, mid, n, j1, j2, j3, j4, j5⟩ := hpart hnd k q c h1 h2
      obtain ⟨v', l, n', k1, k2, k3, k4⟩ := g4 hnd q c (by
        apply List.mem_of_getElem? (i := k)
        rw [List.getElem?_zip_eq_some]
        exact ⟨h1, h2⟩)
      rw [j3] at k1
      cases k1
      exact ⟨v, mid, n, j1, j2, j4, j5, fun h => absurd h ht, fun _ => ⟨l, n', k2, k3, k4⟩⟩

/-! ### The buffer -/

theorem wrap_len {k : Nat} (hk : k + 1 < W32) : 0 < uadd (usub 0 k) 1 ↔ k ≠ 1 := by
  unfold uadd usub
  simp only [W32] at *
  omega

theorem bufLen_mk (p x q y : Nat) : MinMax.bufLen ⟨p, x, q, y⟩ = max (uadd (usub y q) 1) (uadd (usub x p) 1) := rfl

theorem bufLen_nil {b : Box} (hb : BoxOk b) : 0 < (minMaxBox b []).bufLen ↔ ¬ (b.y = 1 ∧ b.h = 1) := by
  have h := hb.bottom
  have h0 := hb.1
  have e : (minMaxBox b []).bufLen = max (uadd (usub 0 b.bottom) 1) (uadd (usub 0 b.y) 1) := by
    rw [minMaxBox_eq]
    rw [bufLen_mk, List.map_nil, List.map_nil, List.foldl_nil, List.foldl_nil, List.foldl_nil]
  rw [e]
  have h1 := wrap_len (k := b.bottom) (by omega)
  have h2 := wrap_len (k := b.y) (by omega)
  generalize uadd (usub 0 b.bottom) 1 = p at *
  generalize uadd (usub 0 b.y) 1 = q at *
  generalize b.bottom = z at *
  clear e
  omega

/-- A position `f` of the first box, given by `F` up to a constant, has a cell in the buffer. -/
theorem held_iff {b : Box} {bs : List Box} (hb : ∀ c ∈ b :: bs, BoxOk c) (f F : Box → Nat) (k : Nat)
    (hF : ∀ c ∈ b :: bs, F c = f c + k) :
    Held F b bs ↔ f b - least f b bs < (minMaxBox b bs).bufLen := by
  by_cases hne : bs = []
  · subst hne
    rw [least_nil, Nat.sub_self, bufLen_nil (hb b List.mem_cons_self)]
    constructor
    · rintro (⟨_, h⟩ | h)
      · exact h
      · obtain ⟨c, hc, _⟩ := h b List.mem_cons_self
        exact absurd hc (by simp)
    · intro h
      exact .inl ⟨rfl, h⟩
  · have R := rangeAll_ok b bs hb
    generalize minMaxBox b bs = m at *
    have hbl : m.bufLen = max m.bottomLen m.topLen := rfl
    obtain ⟨l1, d0, hd0, l2⟩ := least_ok f b bs
    obtain ⟨t1, e1, he1, t2⟩ := least_ok Box.y b bs
    obtain ⟨s1, e2, he2, s2⟩ := least_ok Box.bottom b bs
    rw [← R.minTop] at t1 t2
    rw [← R.minBottom] at s1 s2
    have hFb := hF b List.mem_cons_self
    constructor
    · rintro (⟨h, _⟩ | h)
      · exact absurd h hne
      obtain ⟨c, hc, e, he, h⟩ := h d0 hd0
      have hc' := List.mem_cons_of_mem b hc
      have hFd := hF d0 hd0
      rcases h with h | h
      · have h3 := (R.top hne c.y (t1 c hc')).2 (sees_self hc)
        have h4 := t1 e he
        omega
      · have h3 := (R.bottom hne c.bottom (s1 c hc')).2 (sees_self hc)
        have h4 := s1 e he
        have h5 := (hb c hc').bottom.1
        have h6 := (hb e he).bottom.1
        have h7 := (hb c hc').1
        have h8 := (hb e he).1
        omega
    · intro h
      right
      intro d hd
      have hFd := hF d hd
      have hld := l1 d hd
      have hlb := l1 b List.mem_cons_self
      by_cases hle : m.bottomLen ≤ m.topLen
      · obtain ⟨c, hc, ec⟩ := R.topLen hne
        refine ⟨c, hc, e1, he1, .inl ?_⟩
        have := t1 c (List.mem_cons_of_mem _ hc)
        omega
      · obtain ⟨c, hc, ec⟩ := R.bottomLen hne
        refine ⟨c, hc, e2, he2, .inr ?_⟩
        have := s1 c (List.mem_cons_of_mem _ hc)
        have h5 := (hb c (List.mem_cons_of_mem _ hc)).bottom.1
        have h6 := (hb e2 he2).bottom.1
        have h7 := (hb c (List.mem_cons_of_mem _ hc)).1
        have h8 := (hb e2 he2).1
        omega

theorem lowHeld_iff {b : Box} {bs : List Box} (hb : ∀ c ∈ b :: bs, BoxOk c) :
    LowHeld b bs ↔ b.bottom - (minMaxBox b bs).minBottom < (minMaxBox b bs).bufLen := by
  rw [(rangeAll_ok b bs hb).minBottom]
  exact held_iff hb Box.bottom (fun c => c.y + c.h) 1 (fun c hc => by
    have := (hb c hc).bottom.1
    have := (hb c hc).1
    show c.y + c.h = c.bottom + 1
    omega)

theorem topHeld_iff {b : Box} {bs : List Box} (hb : ∀ c ∈ b :: bs, BoxOk c) :
    TopHeld b bs ↔ b.y - (minMaxBox b bs).minTop < (minMaxBox b bs).bufLen := by
  rw [(rangeAll_ok b bs hb).minTop]
  exact held_iff hb Box.y Box.y 0 (fun _ _ => rfl)

theorem Spec.Spread.held {b : Box} {bs : List Box} (h : Spread b bs) : LowHeld b bs ∧ TopHeld b bs := by
  obtain ⟨⟨c1, hc1, h1⟩, c2, hc2, h2⟩ := h
  refine ⟨.inr fun d hd => ⟨c1, hc1, d, hd, .inr ?_⟩, .inr fun d hd => ⟨c2, hc2, d, hd, .inl ?_⟩⟩
  · show b.y + b.h + (d.y + d.h) ≤ c1.y + c1.h + (d.y + d.h)
    omega
  · omega

end Ppocr

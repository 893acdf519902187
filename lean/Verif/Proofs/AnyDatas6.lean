import Verif.Proofs.AnyDatas
import Verif.Proofs.Order6
import Verif.Proofs.Read6
import Verif.Spec.AnyDatas6

/-! # Helper lemmas: `extract_text6` with any features -/

namespace Ppocr
open Spec Props

/-! ## What a features file can have -/

theorem uint_bound (m : Nat) (s : IS) (o : Nat) (ho : o ≤ m) : (s.uint m o).1 ≤ m := by
  unfold IS.uint
  rcases s.sentry false with ⟨s', b⟩
  cases b with
  | false => exact ho
  | true =>
    simp only []
    split
    · exact Nat.zero_le _
    · split
      · exact Nat.le_refl _
      · rename_i h
        simp only []
        split
        · exact Nat.le_of_lt_succ (Nat.mod_lt _ (by omega))
        · omega

theorem numsRead_bound : ∀ (n : Nat) (s : IS), ∀ x ∈ (numsRead n s).1, x < W32
  | 0, _, x, h => by simp [numsRead] at h
  | n + 1, s, x, h => by
    simp only [numsRead, List.mem_cons] at h
    rcases h with rfl | h
    · have := uint_bound (W32 - 1) s 0 (by decide)
      have h0 : 0 < W32 := by decide
      omega
    · exact numsRead_bound n _ x h

theorem altsRead_bound : ∀ (n : Nat) (s : IS), ∀ x ∈ (altsRead n s).1, x.2 < W32
  | 0, _, x, h => by simp [altsRead] at h
  | n + 1, s, x, h => by
    simp only [altsRead, List.mem_cons] at h
    rcases h with rfl | h
    · have := uint_bound (W32 - 1) (s.bool false).2 0 (by decide)
      have h0 : 0 < W32 := by decide
      simp only []
      omega
    · exact altsRead_bound n _ x h

theorem valueRead_fits (sh : Shape) (s : IS) : (valueRead sh s).1.Fits sh := by
  cases sh with
  | num =>
    refine ⟨rfl, ?_⟩
    have := uint_bound (W32 - 1) s 0 (by decide)
    have h0 : 0 < W32 := by decide
    omega
  | arr n => exact ⟨.inl (by rw [numsRead_length]), numsRead_bound n s⟩
  | vec =>
    simp only [valueRead]
    split
    · exact ⟨.inr ⟨rfl, by simp⟩, by simp⟩
    · exact ⟨.inr ⟨rfl, by rw [numsRead_length]; exact uint_bound maxS s 0 (by simp)⟩, numsRead_bound _ _⟩
  | alt n => exact ⟨by rw [altsRead_length], altsRead_bound n s⟩

theorem valuesRead_fits (sh : Shape) : ∀ (n : Nat) (s : IS), (valuesRead sh n s).1.length = n ∧ ∀ v ∈ (valuesRead sh n s).1, v.Fits sh
  | 0, _ => ⟨rfl, by simp [valuesRead]⟩
  | n + 1, s => by
    obtain ⟨h1, h2⟩ := valuesRead_fits sh n (valueRead sh s).2
    simp only [valuesRead, List.length_cons, h1, true_and]
    intro v h
    rcases List.mem_cons.1 h with rfl | h
    · exact valueRead_fits sh s
    · exact h2 v h

theorem tablesRead_fits (sz : Nat) : ∀ (fs : List (Feat × Policy)) (s : IS), ∀ t ∈ (tablesRead sz fs s).1,
    (t.vals.length = sz ∨ t.vals = []) ∧ ∀ v ∈ t.vals, v.Fits t.strat.1.shape
  | [], s => by simp [tablesRead]
  | f :: fs, s => by
    simp only [tablesRead]
    intro t ht
    rcases List.mem_cons.1 ht with rfl | ht
    · by_cases hs : s.fail = true
      · simp [hs]
      · obtain ⟨h1, h2⟩ := valuesRead_fits f.1.shape sz s
        simp only [hs]
        exact ⟨.inl h1, h2⟩
    · exact tablesRead_fits sz fs _ t ht

theorem tablesRead_none (sz : Nat) {s : IS} (hs : s.fail = true) : ∀ (fs : List (Feat × Policy)), ∀ t ∈ (tablesRead sz fs s).1, t.vals = []
  | [] => by simp [tablesRead]
  | f :: fs => by
    intro t ht
    simp only [tablesRead, hs, if_true] at ht
    rcases List.mem_cons.1 ht with rfl | ht
    · rfl
    · exact tablesRead_none sz hs fs t ht

/-- Whatever the file, the values fit their types, and a column is empty or has the size that stands at the beginning. -/
theorem loadDatas_fits {f : TextFile} {d : Datas} (h : loadDatas f = .ok d) :
    (∀ t ∈ d.tables, t.vals.length = d.size ∨ t.vals = []) ∧ (Whole d → d.Fits) := by
  have hstr := (loadDatas_shaped h).1
  unfold loadDatas at h
  obtain ⟨s, _, h⟩ := Res.bind_eq_ok.1 h
  obtain ⟨_, _, h⟩ := Res.bind_eq_ok.1 h
  cases h
  have hall := tablesRead_fits (s.uint maxS 0).1 (simpleStrats ++ complexStrats ++ exclusiveStrats) (s.uint maxS 0).2
  have hmax := uint_bound maxS s 0 (by simp)
  have hd : (datasRead s).1.tables = (tablesRead (s.uint maxS 0).1 (simpleStrats ++ complexStrats ++ exclusiveStrats) (s.uint maxS 0).2).1 := rfl
  have hcol : ∀ t ∈ (datasRead s).1.tables, t.vals.length = (datasRead s).1.size ∨ t.vals = [] := by
    by_cases hf : (s.uint maxS 0).2.fail = true
    · intro t ht
      right
      rw [hd] at ht
      exact tablesRead_none _ hf _ t ht
    · have hsz : (datasRead s).1.size = (s.uint maxS 0).1 := by
        have e : (simpleStrats ++ complexStrats ++ exclusiveStrats) = (.dvgravity2, .img90) :: (simpleStrats ++ complexStrats ++ exclusiveStrats).tail := rfl
        unfold Datas.size
        rw [hd, e]
        simp only [tablesRead, hf]
        exact (valuesRead_fits _ _ _).1
      intro t ht
      rw [hsz]
      exact (hall t ht).1
  refine ⟨hcol, fun hw => ⟨hstr, ?_, hw, fun t ht => (hall t ht).2⟩⟩
  unfold Datas.size
  cases ht : (datasRead s).1.tables with
  | nil => simp
  | cons t ts =>
    rcases (hall t (by rw [← hd, ht]; simp)).1 with h | h
    · simp only [h]
      exact hmax
    · simp [h]


/-! ## The order of the glyphs -/

theorem fits_tabs {d : Datas} (h : d.Fits) : Tabs d d.size := by
  have hshape : ∀ t ∈ d.tables, ∀ v ∈ t.vals, Shaped t.strat.1.shape v := by
    intro t ht v hv
    have := h.vals t ht v hv
    generalize t.strat.1.shape = sh at this
    cases v with
    | num n => obtain ⟨rfl, _⟩ := this; exact ⟨n, rfl⟩
    | arr l =>
      obtain ⟨rfl | ⟨rfl, _⟩, _⟩ := this
      · exact ⟨l, rfl, rfl⟩
      · exact ⟨l, rfl⟩
    | alt l => obtain ⟨rfl, _⟩ := this; exact ⟨l, rfl, rfl⟩
  refine ⟨h.strats, ?_, ?_⟩
  · intro s hs
    obtain ⟨t, ht, _, e⟩ := get_any h.strats hs
    rw [e]
    exact h.same t ht
  · intro s hs
    obtain ⟨t, ht, rfl, e⟩ := get_any h.strats hs
    rw [e]
    exact hshape t ht

theorem fits_col {d : Datas} (h : d.Fits) {s : Feat × Policy} (hs : s ∈ simpleStrats) : (d.col s).length = d.size ∧ ∀ x ∈ d.col s, x < W32 := by
  obtain ⟨t, ht, e1, e2⟩ := get_any h.strats (simpleStrats_registered hs)
  unfold Datas.col
  rw [e2, List.length_map]
  refine ⟨h.same t ht, ?_⟩
  intro x hx
  obtain ⟨v, hv, rfl⟩ := List.mem_map.1 hx
  have := h.vals t ht v hv
  cases v with
  | num n => exact this.2
  | arr l => show 0 < W32; decide
  | alt l => show 0 < W32; decide

theorem strat_inj : ∀ {ts : List Table}, (ts.map Table.strat).Nodup → ∀ {u t : Table}, u ∈ ts → t ∈ ts → u.strat = t.strat → u = t
  | [], _, u, _, hu, _, _ => by cases hu
  | x :: ts, h, u, t, hu, ht, e => by
    rw [List.map_cons, List.nodup_cons] at h
    rcases List.mem_cons.1 hu with hu | hu <;> rcases List.mem_cons.1 ht with ht | ht
    · rw [hu, ht]
    · exact absurd (List.mem_map.2 ⟨t, ht, by rw [← e, hu]⟩) h.1
    · exact absurd (List.mem_map.2 ⟨u, hu, by rw [e, ht]⟩) h.1
    · exact strat_inj h.2 hu ht e

/-- The glyphs in their order: the columns are the same, up to their order. -/
theorem order6_any (S : StdSort) {d : Datas} {ws : List Words} (h : d.Fits) (hl : ws.length = d.size) (hn : d.size < W32) :
    ∃ ws' d', order6 S d ws = .ok (ws', d') ∧ ws'.Perm ws ∧ d'.Fits ∧ d'.size = d.size ∧ (d'.col strategy1).Perm (d.col strategy1) ∧
      (d'.col strategy1).Pairwise (· ≤ ·) ∧ ∀ y, BorderPart d' y → BorderPart d y := by
  obtain ⟨idx, es, hp, hs⟩ := sort8_ok S h
  obtain ⟨w, ew, wl, wk, wp⟩ := C54_reindex [] idx ws (by rw [hl]; exact hp)
  obtain ⟨cs, ts', ec, et, h1, h2⟩ := columns6_ok hp d.tables h.same
  have hlen : idx.length = d.size := by rw [hp.length_eq, List.length_range]
  have hmem : ∀ t' ∈ ts', ∃ t ∈ d.tables, t'.strat = t.strat ∧ t'.vals.length = d.size ∧ ∀ v ∈ t'.vals, v ∈ t.vals := by
    intro t' ht'
    obtain ⟨t, ht, e1, e2, e3⟩ := h2 t' ht'
    refine ⟨t, ht, e1, e2, ?_⟩
    intro v hv
    obtain ⟨k, hk⟩ := List.getElem?_of_mem hv
    have hk' : k < idx.length := by rw [hlen, ← e2]; exact (List.getElem?_eq_some_iff.1 hk).1
    rw [e3 k _ (List.getElem?_eq_getElem hk')] at hk
    exact List.mem_of_getElem? hk
  have hsz : (⟨ts', Ctxs.fresh⟩ : Datas).size = d.size := by
    cases hts : ts' with
    | nil => rw [hts, h.strats] at h1; cases h1
    | cons t' l =>
      obtain ⟨_, _, _, e, _⟩ := hmem t' (by rw [hts]; simp)
      exact e
  have hf : (⟨ts', Ctxs.fresh⟩ : Datas).Fits := by
    refine ⟨h1.trans h.strats, by rw [hsz]; exact h.size, ?_, ?_⟩
    · intro t' ht'
      rw [hsz]
      exact (hmem t' ht').choose_spec.2.2.1
    · intro t' ht' v hv
      obtain ⟨t, ht, e, _, hvs⟩ := hmem t' ht'
      rw [e]
      exact h.vals t ht v (hvs v hv)
  have hcol : (⟨ts', Ctxs.fresh⟩ : Datas).col strategy1 = idx.map (key8 d) := by
    obtain ⟨t', ht', e1, e2⟩ := get_any hf.strats (s := strategy1) (by decide)
    obtain ⟨t, ht, e3, e4, e5⟩ := h2 t' ht'
    have et : d.get strategy1 = t.vals := by
      obtain ⟨u, hu, e6, e7⟩ := get_any h.strats (s := strategy1) (by decide)
      rw [e7]
      congr 1
      have hnd : (d.tables.map Table.strat).Nodup := by rw [h.strats]; decide
      exact strat_inj hnd hu ht (by rw [e6, ← e3, e1])
    unfold Datas.col
    rw [e2]
    apply List.ext_getElem (by rw [List.length_map, List.length_map, e4, hlen])
    intro k hk1 hk2
    have hk' : k < idx.length := by rw [List.length_map] at hk2; exact hk2
    have hk1' : k < t'.vals.length := by rw [List.length_map] at hk1; exact hk1
    have hx := e5 k _ (List.getElem?_eq_getElem hk')
    rw [List.getElem_map, List.getElem_map]
    have hkey : ∀ j, key8 d j = ((t.vals[j]?).getD (.num 0)).toNum := by
      intro j
      unfold key8
      rw [et, List.getD_eq_getElem?_getD]
    rw [hkey, ← hx, List.getElem?_eq_getElem hk1']
    rfl
  refine ⟨w, ⟨ts', Ctxs.fresh⟩, ?_, wp, hf, hsz, ?_, ?_, ?_⟩
  · unfold order6
    simp only []
    rw [Nat.mod_eq_of_lt hn, List.length_range, decide_eq_true rfl, assert_true, Res.ok_bind, es,
      Res.ok_bind, ew, Res.ok_bind, unmoved_some, Res.ok_bind, ec, Res.ok_bind, et, Res.ok_bind]
    rfl
  · rw [hcol]
    have : d.col strategy1 = (List.range d.size).map (key8 d) := by
      have hl1 := (fits_col h (s := strategy1) (by decide)).1
      apply List.ext_getElem (by rw [hl1, List.length_map, List.length_range])
      intro k hk1 hk2
      rw [List.getElem_map, List.getElem_range]
      unfold key8
      unfold Datas.col at hk1 ⊢
      have hk1' : k < (d.get strategy1).length := by rw [List.length_map] at hk1; exact hk1
      rw [List.getElem_map, List.getD_eq_getElem?_getD, List.getElem?_eq_getElem hk1']
      rfl
    rw [this]
    exact hp.map _
  · rw [hcol, List.pairwise_map]
    exact hs.imp fun hab => by omega
  · rintro y ⟨t', ht', e, l, hl', hy⟩
    obtain ⟨t, ht, e1, _, hv⟩ := hmem t' ht'
    exact ⟨t, ht, by rw [← e1, e], l, hv _ hl', hy⟩

/-- A column without values. -/
theorem reindexTables_ub {idx : List Nat} : ∀ {ts : List Table}, idx ≠ [] → (∃ t ∈ ts, t.vals = []) →
    (∀ t ∈ ts, t.vals = [] ∨ ∃ r, reindex (.num 0) idx t.vals = .ok r) → reindexTables idx ts = .ub
  | [], _, h, _ => by obtain ⟨t, ht, _⟩ := h; cases ht
  | t :: ts, hi, h, hall => by
    unfold reindexTables
    by_cases ht : t.vals = []
    · rw [ht]
      cases idx with
      | nil => exact absurd rfl hi
      | cons i is => rfl
    · rcases hall t (by simp) with h0 | ⟨r, e⟩
      · exact absurd h0 ht
      · rw [e, Res.ok_bind, reindexTables_ub hi (by
          obtain ⟨u, hu, h0⟩ := h
          rcases List.mem_cons.1 hu with rfl | hu
          · exact absurd h0 ht
          · exact ⟨u, hu, h0⟩) fun u hu => hall u (by simp [hu])]
        rfl

/-- Features that are not whole: the glyphs cannot be put in order. -/
theorem order6_ub (S : StdSort) {f : TextFile} {d : Datas} {ws : List Words} (h : loadDatas f = .ok d) (hw : ¬ Whole d)
    (hl : ws.length = d.size) (hn : d.size < W32) : order6 S d ws = .ub := by
  obtain ⟨hstr, hshape⟩ := loadDatas_shaped h
  have hcol := (loadDatas_fits h).1
  have hex : 0 < d.size ∧ ∃ t ∈ d.tables, t.vals = [] := by
    have : ∃ t ∈ d.tables, ¬ t.vals.length = d.size := Classical.byContradiction fun hn => hw fun t ht =>
      Classical.byContradiction fun hc => hn ⟨t, ht, hc⟩
    obtain ⟨t, ht, hne⟩ := this
    rcases hcol t ht with h1 | h1
    · exact absurd h1 hne
    · refine ⟨?_, t, ht, h1⟩
      rw [h1] at hne
      simp only [List.length_nil] at hne
      omega
  unfold order6
  simp only []
  rw [Nat.mod_eq_of_lt hn, List.length_range, decide_eq_true rfl, assert_true, Res.ok_bind]
  obtain ⟨u, hu, hus, eu⟩ := get_any hstr (s := strategy1) (by decide)
  rcases hcol u hu with hlen | hnil
  · have hnum : ∀ k : Nat, k < d.size → ∃ n, (d.get strategy1)[k]? = some (.num n) := by
      intro k hk
      have hk' : k < u.vals.length := by omega
      have := hshape u hu u.vals[k] (List.getElem_mem _)
      rw [hus] at this
      obtain ⟨n, e⟩ := this
      exact ⟨n, by rw [eu, List.getElem?_eq_getElem hk', e]⟩
    obtain ⟨idx, es, hp, _⟩ := sortRes_ok (S := S) (lt := ltFirst d) (l := List.range d.size) (R := fun a b => key8 d a < key8 d b)
      (by
        intro a ha b hb
        obtain ⟨n, e1⟩ := hnum a (by simpa using ha)
        obtain ⟨m, e2⟩ := hnum b (by simpa using hb)
        refine ⟨decide (key8 d a < key8 d b), ?_, by simp⟩
        unfold ltFirst key8
        rw [rd_of_getElem? e1, Res.ok_bind, rd_of_getElem? e2, Res.ok_bind, List.getD_eq_getElem?_getD, List.getD_eq_getElem?_getD, e1, e2]
        rfl)
      (by intro a _; omega) (by intro a _ b _ c _ h1 h2; omega) (by intro a _ b _ c _ h1 h2 h3 h4; omega)
    obtain ⟨w, ew, _⟩ := C54_reindex [] idx ws (by rw [hl]; exact hp)
    rw [es, Res.ok_bind, ew, Res.ok_bind, unmoved_some, Res.ok_bind, reindexTables_ub ?_ hex.2 ?_]
    · rfl
    · intro h0
      have := hp.length_eq
      rw [h0, List.length_range] at this
      simp only [List.length_nil] at this
      omega
    · intro t ht
      rcases hcol t ht with h1 | h1
      · right
        obtain ⟨r, e, _⟩ := C54_reindex (.num 0) idx t.vals (by rw [h1]; exact hp)
        exact ⟨_, e⟩
      · exact .inl h1
  · have : sortRes S (ltFirst d) (List.range d.size) = .ub := by
      unfold sortRes
      rw [if_neg]
      intro hall
      rw [List.all_eq_true] at hall
      have h0 := hall 0 (by simpa using hex.1)
      rw [List.all_eq_true] at h0
      have h1 := h0 0 (by simpa using hex.1)
      unfold ltFirst at h1
      rw [eu, hnil] at h1
      cases h1
    rw [this]
    rfl

/-! ## The tables -/

/-- A glyph without words. -/
theorem build6_empty {d : Datas} {ws : List Words} (h : [] ∈ ws) : build6 d ws = .ub := by
  unfold build6 makeByWord
  rw [collectFirst_ub _ _ _ (.inr (List.mem_map.2 ⟨[], h, rfl⟩))]
  rfl

/-- A value behind the last category. -/
theorem build6_ub {d : Datas} {ws : List Words} (hn : (d.col strategy1).length < W32) (h1 : ∃ x ∈ d.col strategy1, 20 < x / 10) :
    build6 d ws = .ub := by
  by_cases hw : [] ∈ ws
  · exact build6_empty hw
  obtain ⟨bw, ebw⟩ := makeByWord_ok (gs := ws.map some) (by
    intro g hg
    obtain ⟨v, hv, rfl⟩ := List.mem_map.1 hg
    cases v with
    | nil => exact absurd hv hw
    | cons w v => exact ⟨w, v, rfl⟩)
  obtain ⟨nb, enb, _⟩ := nbLoop_ok (d.col strategy1) (List.replicate (20 + 1) 0) (by simp) (by
    intro v
    rw [List.getD_eq_getElem?_getD, List.getElem?_replicate]
    split <;> simpa using hn)
  unfold build6
  rw [ebw, Res.ok_bind, interval6_first, enb, Res.ok_bind]
  unfold shiftOf
  rw [shiftLoop_ub _ _ (by simp) h1]
  rfl

/-! ## A letter -/

theorem hbar_loop_any {d : Datas} {n : Nat} (h : Tabs d n) {a r : Image} (ha : Sized a) (hr : a.rotate90 = .ok r) {p : Policy}
    (hp : (Feat.hbar, p) ∈ registered) : ∃ v, (d.strat6 (.hbar, p)).load a r = .ok v ∧ ∀ ps : Probs6,
      (∀ q ∈ ps, q.1 < n) → (∀ q ∈ ps, q.2.Crisp false) →
      ∃ ps' k, complexLoop Prob6.mulDiv (d.strat6 (.hbar, p)).rel (d.strat6 (.hbar, p)).tab v ps = .ok ps' ∧
        ps'.map Prod.fst = (ps.map Prod.fst).filter k ∧ (∀ q ∈ ps', q.2.Crisp false) := by
  obtain ⟨m, e⟩ := feature_hbar ha (ha.rotated hr) .img
  refine ⟨m, ?_, ?_⟩
  · show (do return (← toolLoad (.hbar, p) a r).toNum : Res Nat) = _
    rw [toolLoad_eq, e]; rfl
  · intro ps hl hcr
    let k : Nat → Bool := fun j => decide (((d.get (.hbar, p)).map Value.toNum)[j]? = some m)
    obtain ⟨ps', e', h1, h2⟩ := complexLoop_ok (rel := (d.strat6 (.hbar, p)).rel) (tab := (d.strat6 (.hbar, p)).tab) (value := m)
      (k := k) (show 0 < usub 2 1 by decide) ps (by
        intro q hq
        have hql : q.1 < ((d.get (.hbar, p)).map Value.toNum).length := by
          rw [List.length_map, h.len _ hp]; exact hl q hq
        refine ⟨((d.get (.hbar, p)).map Value.toNum)[q.1], if ((d.get (.hbar, p)).map Value.toNum)[q.1] = m then 1 else 0,
          rd_of_lt hql, rfl, ?_⟩
        show decide (uadd (usub 2 1) 1 / 2 ≤ if _ = m then 1 else 0) = decide (((d.get (.hbar, p)).map Value.toNum)[q.1]? = some m)
        rw [List.getElem?_eq_getElem hql]
        have h12 : uadd (usub 2 1) 1 / 2 = 1 := by decide
        rw [h12]
        generalize ((d.get (.hbar, p)).map Value.toNum)[q.1] = x
        by_cases hx : x = m
        · simp [hx]
        · simp [hx]) hcr
    exact ⟨ps', k, e', h1, h2⟩

theorem alternations_loop_any {d : Datas} {n : Nat} (h : Tabs d n) {a r : Image} (ha : Sized a) (hr : a.rotate90 = .ok r) :
    ∃ v, (d.strat6 (.alternations, .img)).load a r = .ok v ∧ ∀ ps : Probs6,
      (∀ q ∈ ps, q.1 < n) → (∀ q ∈ ps, q.2.Crisp false) →
      ∃ ps' k, complexLoop Prob6.mulDiv (d.strat6 (.alternations, .img)).rel (d.strat6 (.alternations, .img)).tab v ps = .ok ps' ∧
        ps'.map Prod.fst = (ps.map Prod.fst).filter k ∧ (∀ q ∈ ps', q.2.Crisp false) := by
  obtain ⟨y, e, hy⟩ := feature_alternations ha (ha.rotated hr)
  have hreg : (Feat.alternations, Policy.img) ∈ registered := by decide
  refine ⟨y, ?_, ?_⟩
  · show (do return (← toolLoad (.alternations, .img) a r).toAlt : Res _) = _
    rw [toolLoad_eq, e]; rfl
  · intro ps hl hcr
    let k : Nat → Bool := fun j => decide (4 ≤ agree (((d.get (.alternations, .img)).map Value.toAlt).getD j []) y)
    obtain ⟨ps', e', h1, h2⟩ := complexLoop_ok (rel := (d.strat6 (.alternations, .img)).rel)
      (tab := (d.strat6 (.alternations, .img)).tab) (value := y) (k := k) (show 0 < usub 101 1 by decide) ps (by
        intro q hq
        have hql' : q.1 < (d.get (.alternations, .img)).length := by rw [h.len _ hreg]; exact hl q hq
        have hql : q.1 < ((d.get (.alternations, .img)).map Value.toAlt).length := by rw [List.length_map]; exact hql'
        obtain ⟨x, ex, hx⟩ : ∃ l, (d.get (.alternations, .img))[q.1] = .alt l ∧ l.length = 7 :=
          h.shaped _ hreg _ (List.getElem_mem hql')
        have et : ((d.get (.alternations, .img)).map Value.toAlt)[q.1]? = some x := by
          rw [List.getElem?_map, List.getElem?_eq_getElem hql', ex]; rfl
        obtain ⟨e3, h7⟩ := arrayRel_agree hx hy
        refine ⟨x, _, rd_of_getElem? et, e3, ?_⟩
        show decide (uadd (usub 101 1) 1 / 2 ≤ _) = decide (4 ≤ agree (((d.get (.alternations, .img)).map Value.toAlt).getD q.1 []) y)
        rw [List.getD_eq_getElem?_getD, et]
        have h50 : uadd (usub 101 1) 1 / 2 = 50 := by decide
        rw [h50]
        show _ = decide (4 ≤ agree x y)
        generalize agree x y = n at *
        exact decide_eq_decide.2 (by omega)) hcr
    exact ⟨ps', k, e', h1, h2⟩

theorem reduceComplex6_any {d : Datas} {n : Nat} (h : Tabs d n) {a r : Image} (ha : Sized a) (hr : a.rotate90 = .ok r)
    {ps : Probs6} (hl : ∀ q ∈ ps, q.1 < n) (hcr : ∀ q ∈ ps, q.2.Crisp false) :
    ∃ ps', reduceComplex6 Prob6.mulDiv a r (complexStrats.map d.strat6) ps = .ok ps' ∧ (∀ q ∈ ps', q.2.Crisp false) ∧
      ∀ q ∈ ps', q.1 < n := by
  obtain ⟨v1, l1, f1⟩ := hbar_loop_any h ha hr (p := .img) (by decide)
  obtain ⟨v2, l2, f2⟩ := hbar_loop_any h ha hr (p := .img90) (by decide)
  obtain ⟨v3, l3, f3⟩ := alternations_loop_any h ha hr
  obtain ⟨p1, k1, e1, m1, c1⟩ := f1 ps hl hcr
  have hl1 := mem_fst hl m1
  obtain ⟨p2, k2, e2, m2, c2⟩ := f2 p1 hl1 c1
  have hl2 := mem_fst hl1 m2
  obtain ⟨p3, k3, e3, m3, c3⟩ := f3 p2 hl2 c2
  have el : complexStrats.map d.strat6 = [d.strat6 (.hbar, .img), d.strat6 (.hbar, .img90), d.strat6 (.alternations, .img)] := rfl
  refine ⟨p3, ?_, c3, mem_fst hl2 m3⟩
  rw [el, reduceComplex6, l1, Res.ok_bind, e1, Res.ok_bind, reduceComplex6, l2, Res.ok_bind, e2, Res.ok_bind, reduceComplex6, l3,
    Res.ok_bind, e3, Res.ok_bind]
  rfl

theorem pzSum_by_zero (a b : List Nat) (s : Nat) (hp : ∀ p ∈ a.zip b, p.1 + p.2 < W32) (hl : a.length = b.length) (h : ∃ p ∈ a.zip b, p.1 + p.2 = 0) :
    pzSum a b s = .ub := by
  induction a generalizing b s with
  | nil => simp at h
  | cons x a ih =>
    cases b with
    | nil => simp at h
    | cons y b =>
      have h2 := hp (x, y) (by simp)
      simp only [] at h2
      have e1 : uadd x y = x + y := Nat.mod_eq_of_lt h2
      unfold pzSum
      rw [e1]
      by_cases h0 : x + y = 0
      · rw [h0]; rfl
      · have e2 : udiv (umul x 100) (x + y) = .ok (x * 100 % W32 / (x + y)) := by
          unfold udiv umul
          rw [if_neg h0]
        rw [e2, Res.ok_bind]
        refine ih b _ (fun p hp' => hp p (by simp [hp'])) (by simpa using hl) ?_
        obtain ⟨p, hp', e⟩ := h
        rw [List.zip_cons_cons, List.mem_cons] at hp'
        rcases hp' with rfl | hp'
        · exact absurd e h0
        · exact ⟨p, hp', e⟩

theorem pz_or (a b : List Nat) (hl : b.length * 100 < W32) (hp : ∀ p ∈ a.zip b, p.1 + p.2 < W32) :
    pzCompute a b = .ub ∨ ∃ n, pzCompute a b = .ok n ∧ n ≤ 100 := by
  by_cases hz : ∃ p ∈ a.zip b, p.1 + p.2 = 0
  · by_cases h : a.length = b.length
    · left
      unfold pzCompute
      rw [if_neg (by simpa using h), if_neg, pzSum_by_zero a b 0 hp h hz]
      · rfl
      · obtain ⟨p, hp', _⟩ := hz
        cases a with
        | nil => simp at hp'
        | cons x a => simp
    · right
      unfold pzCompute
      rw [if_pos h]
      exact ⟨0, rfl, by omega⟩
  · right
    refine pz_any a b hl fun p hp' => ⟨?_, hp p hp'⟩
    exact Nat.pos_of_ne_zero fun h0 => hz ⟨p, hp', h0⟩

/-- Each test of each glyph is made, or divides by 0. -/
theorem exclusive_or {d : Datas} {n : Nat} (h : Tabs d n) (hb : NoWrap d) {a r : Image} (ha : Sized a)
    {t : Strat} (ht : t ∈ exclusiveStrats.map d.strat) {j : Nat} (hj : j < n) : testRun t a r j = .ub ∨ ∃ b, testRun t a r j = .ok b := by
  obtain ⟨s, hs, rfl⟩ := List.mem_map.1 ht
  simp only [exclusiveStrats, List.mem_cons, List.not_mem_nil, or_false] at hs
  rcases hs with rfl | rfl
  · right
    have hreg : (Feat.zone, Policy.img) ∈ registered := by decide
    obtain ⟨y, ey, hy⟩ := feature_zone ha r
    have e1 : (d.strat (.zone, .img)).load a r = .ok y := by
      show (do return (← loadStrat (.zone, .img) a r).toArr : Res (List Nat)) = _
      rw [loadStrat_eq, ey]; rfl
    have hlt : j < (d.get (.zone, .img)).length := by rw [h.len _ hreg]; exact hj
    obtain ⟨x, ex, hx⟩ : ∃ l, (d.get (.zone, .img))[j] = .arr l ∧ l.length = 7 := h.shaped _ hreg _ (List.getElem_mem hlt)
    have e2 : rd (d.strat (.zone, .img)).tab j = .ok x :=
      rd_of_getElem? (by
        show ((d.get (.zone, .img)).map Value.toArr)[j]? = some x
        rw [List.getElem?_map, List.getElem?_eq_getElem hlt, ex]; rfl)
    exact ⟨_, (testRun_eq e1 e2).trans (array_inDist (arrayRel_agree hx hy).1 _)⟩
  · have hreg : (Feat.propZone, Policy.img) ∈ registered := by decide
    obtain ⟨_, y, _, ey, _, hle, hlen, _, _⟩ := propZone_thin a ha.wf ha.w ha.h ha.area
    have e1 : (d.strat (.propZone, .img)).load a r = .ok y := by
      show (do return (← loadStrat (.propZone, .img) a r).toArr : Res (List Nat)) = _
      rw [loadStrat_eq, feature_propZone ey]; rfl
    have hlt : j < (d.get (.propZone, .img)).length := by rw [h.len _ hreg]; exact hj
    obtain ⟨x, ex⟩ : ∃ l, (d.get (.propZone, .img))[j] = .arr l := h.shaped _ hreg _ (List.getElem_mem hlt)
    have e2 : rd (d.strat (.propZone, .img)).tab j = .ok x :=
      rd_of_getElem? (by
        show ((d.get (.propZone, .img)).map Value.toArr)[j]? = some x
        rw [List.getElem?_map, List.getElem?_eq_getElem hlt, ex]; rfl)
    have hmem : ∀ z ∈ x, BorderPart d z := by
      intro z hz
      obtain ⟨t, ht, e, ev⟩ := get_any h.strats hreg
      refine ⟨t, ht, e, x, ?_, hz⟩
      rw [← ev, ← ex]
      exact List.getElem_mem hlt
    rcases pz_or x y hlen (by
      intro p hp
      have hx := List.of_mem_zip hp
      have h1 := hb p.1 (hmem _ hx.1)
      have h2 := hle p.2 hx.2
      simp only [W32]; omega) with ec | ⟨c, ec, _⟩
    · left
      refine (testRun_eq e1 e2).trans ?_
      show pzRel.inDist x y _ = .ub
      simp only [pzRel, ec]
      rfl
    · right
      exact ⟨_, (testRun_eq e1 e2).trans (pz_inDist ec _)⟩

/-- With features that are whole a letter is read, or a division by 0 is met. -/
theorem letter6_any (S : StdSort) {d : Datas} {ws : List Words} {t : Tab6} (hf : Tabs d ws.length) (hc : Cols6 d ws.length)
    (hb : Built d ws t) (hne : [] ∉ ws) (hnw : NoWrap d) {a r : Image} (ha : Sized a) (hr : a.rotate90 = .ok r) :
    (∃ o, computeLetter6 S t a r = .ok o ∧ Gives6 ws o) ∨ (computeLetter6 S t a r = .ub ∧ ¬ Divides d a) := by
  have hv := val6_ok ha (ha.rotated hr)
  obtain ⟨ps, eps, _, hmem, hcr⟩ := candidates6_ok (img := a) (img90 := r) hb hc rfl (val := val6 a r) (by
    intro s hs
    rw [toolLoad_eq]
    exact hv s hs)
  have hps : ∀ q ∈ ps, q.1 < ws.length := fun q hq => ((hmem q.1).1 (List.mem_map.2 ⟨q, hq, rfl⟩)).1
  have hfrom : ∀ (j : Nat), j < ws.length → ∀ w ∈ ws.getD j [], ∃ v ∈ ws, w ∈ v := by
    intro j hj w hw
    rw [List.getD_eq_getElem?_getD, List.getElem?_eq_getElem hj] at hw
    exact ⟨_, List.getElem_mem hj, hw⟩
  have hhd : ∀ (j : Nat), j < ws.length → ∀ w, (ws.getD j []).head? = some w → ∃ v ∈ ws, v.head? = some w := by
    intro j hj w hw
    rw [List.getD_eq_getElem?_getD, List.getElem?_eq_getElem hj] at hw
    exact ⟨_, List.getElem_mem hj, hw⟩
  obtain ⟨tmp, etmp, hsub, hsort, hcov⟩ := sortShow_ok S (words := ws) (ps := ps)
    (g := fun j => simpleStrats.all (same6 d (val6 a r) j)) hps hcr
  unfold computeLetter6
  rw [eps, Res.ok_bind, hb.words, etmp, Res.ok_bind]
  cases tmp with
  | nil => exact .inl ⟨_, rfl, by simp, by simp, fun _ => ⟨rfl, rfl⟩, .inr rfl⟩
  | cons best rest =>
    have hbest : best ∈ ps := hsub best (by simp)
    obtain ⟨r1, er1, hr1⟩ := getWord_ok hne (hps best hbest)
    have hfirst := hhd best.1 (hps best hbest) r1 hr1
    simp only []
    rw [er1, Res.ok_bind, less_one (hcr best hbest), Bool.not_not]
    cases hbb : simpleStrats.all (same6 d (val6 a r) best.1) with
    | true =>
      rw [if_pos rfl]
      have hg := gather6_ok (words := ws) (stop := fun p => p.less ⟨1, 1⟩)
        (sb := fun j => !simpleStrats.all (same6 d (val6 a r) j)) (best :: rest)
        (fun q hq => hps q (hsub q hq)) (fun q hq => less_one (hcr q (hsub q hq)))
        (hsort.imp fun {x y} hxy h1 => by
          cases hy : simpleStrats.all (same6 d (val6 a r) y.1) with
          | true => exact absurd ⟨by simpa using h1, hy⟩ hxy
          | false => rfl)
      simp only [Bool.not_not] at hg
      rw [hg, Res.ok_bind]
      left
      have hhead : ((List.filter (fun q => simpleStrats.all (same6 d (val6 a r) q.1)) (best :: rest)).flatMap
          fun q => ws.getD q.1 []).head? = some r1 := by
        rw [List.filter_cons, if_pos hbb]
        exact head_gather hr1
      refine ⟨_, rfl, ?_, fun _ => ⟨rfl, hhead⟩, ?_, .inl hfirst⟩
      · intro w hw
        simp only [List.mem_flatMap, List.mem_filter] at hw
        obtain ⟨q, ⟨hq, _⟩, hw⟩ := hw
        exact hfrom q.1 (hps q (hsub q hq)) w hw
      · intro h0
        simp only [] at h0
        rw [h0] at hhead
        cases hhead
    | false =>
      rw [if_neg (by simp)]
      have hfalse : ∀ q ∈ ps, simpleStrats.all (same6 d (val6 a r) q.1) = false := by
        intro q hq
        obtain ⟨q', hq', _, e2⟩ := hcov q hq
        cases hc : simpleStrats.all (same6 d (val6 a r) q.1) with
        | false => rfl
        | true =>
          have h' := e2 hc
          rcases List.mem_cons.1 hq' with rfl | hq'
          · rw [hbb] at h'; cases h'
          · exact absurd ⟨hbb, h'⟩ (List.rel_of_pairwise_cons hsort hq')
      obtain ⟨p1, e1, c1, m1⟩ := reduceComplex6_any hf ha hr hps
        (fun q hq => by have := hcr q hq; rw [hfalse q hq] at this; exact this)
      rw [hb.datas, e1, Res.ok_bind, reduceExclusive6_eq]
      obtain ⟨bw, ebw, lbw, hbw⟩ := makeByWord_map hne
      have ebw' := hb.byWords
      rw [ebw, Res.ok.injEq] at ebw'
      rw [← ebw']
      have hin : ∀ p ∈ p1, p.1 < bw.length := fun p hp => by rw [lbw]; exact m1 p hp
      have hlt : ∀ l ∈ bw, ∀ j ∈ l, j < ws.length := by
        intro l hl j hj
        obtain ⟨g, hg⟩ := List.getElem?_of_mem hl
        have hgl : g < ws.length := by rw [← lbw]; exact (List.getElem?_eq_some_iff.1 hg).1
        exact ((hbw g j hgl).1 (by rw [List.getD_eq_getElem?_getD, hg]; exact hj)).1
      by_cases hst : ∃ p ∈ p1, Stuck bw (exclusiveStrats.map d.strat) a r p.1
      · right
        rw [reduceExclusive_stuck bw (exclusiveStrats.map d.strat) (exclusive_loads ha) p1 hin
          (fun l hl j hj s hs => exclusive_or hf hnw ha hs (hlt l hl j hj)) hst, Res.ub_bind]
        refine ⟨rfl, ?_⟩
        intro hd
        obtain ⟨p, hp, pre, j, post, e, _, hbr⟩ := hst
        refine not_broken (fun t ht => exclusive_any hf hnw ha hd ht ?_) hbr
        exact ((hbw p.1 j (m1 p hp)).1 (by rw [e]; simp)).1
      · left
        rw [reduceExclusive_ok bw (exclusiveStrats.map d.strat) (exclusive_loads ha) p1 hin
          (fun p hp hs => hst ⟨p, hp, hs⟩), Res.ok_bind]
        have hsubp : ∀ q ∈ p1.filter (fun p => wordKeep bw (exclusiveStrats.map d.strat) a r p.1), q ∈ p1 :=
          fun q hq => (List.mem_filter.1 hq).1
        obtain ⟨fin, efin, fsub, _, fcov⟩ := sortShow_ok S (words := ws)
          (ps := p1.filter fun p => wordKeep bw (exclusiveStrats.map d.strat) a r p.1) (g := fun _ => false)
          (fun q hq => m1 q (hsubp q hq)) (fun q hq => c1 q (hsubp q hq))
        have hfin : ∀ q ∈ fin, q ∈ p1 := fun q hq => hsubp q (fsub q hq)
        rw [efin, Res.ok_bind]
        cases fin with
        | nil => exact ⟨_, rfl, by simp, by simp, fun _ => ⟨rfl, rfl⟩, .inl hfirst⟩
        | cons first fin =>
          obtain ⟨r2, er2, hr2⟩ := getWord_ok hne (m1 first (hfin first (by simp)))
          have hg := gather6_ok (words := ws) (stop := fun p => p.less first.2) (sb := fun _ => false) (first :: fin)
            (fun q hq => m1 q (hfin q hq))
            (fun q hq => by
              rw [less_crisp (c1 q (hfin q hq)) (c1 first (hfin first (by simp)))]
              rfl)
            (List.pairwise_of_forall (by simp))
          simp only []
          rw [hg, Res.ok_bind, er2, Res.ok_bind]
          have hall : (first :: fin).filter (fun q => !(fun _ => false) q.1) = first :: fin := List.filter_eq_self.2 (by simp)
          refine ⟨_, rfl, ?_, ?_, ?_, .inl hfirst⟩
          · intro w hw
            simp only [List.mem_flatMap, hall] at hw
            obtain ⟨q, hq, hw⟩ := hw
            exact hfrom q.1 (m1 q (hfin q hq)) w hw
          · intro _
            refine ⟨rfl, ?_⟩
            simp only [hall]
            exact head_gather hr2
          · intro h0
            simp only [hall] at h0
            have := head_gather (r := fin) hr2
            rw [h0] at this
            cases this

theorem Spec.Gives6.head {ws : List Words} {o : Letter6} (h : Gives6 ws o) : o.cached.head? = some o.r2 := by
  by_cases ha : o.amb = []
  · obtain ⟨h1, h2⟩ := h.unread ha
    rw [h1, h2]; rfl
  · obtain ⟨h1, h2⟩ := h.read ha
    rw [h1, h2]

end Ppocr

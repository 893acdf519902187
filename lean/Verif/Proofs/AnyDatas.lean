import Verif.Spec.AnyDatas
import Verif.Proofs.Recognise
import Verif.Model.Tools

/-! # Lemmas on arbitrary features files (C113) -/

namespace Ppocr
open Spec Props

/-! ## What a file can give -/

/-- The value is of the shape. -/
def Shaped (sh : Shape) (v : Value) : Prop :=
  match sh with
  | .num => ∃ n, v = .num n
  | .arr n => ∃ l, v = .arr l ∧ l.length = n
  | .vec => ∃ l, v = .arr l
  | .alt n => ∃ l, v = .alt l ∧ l.length = n

theorem numsRead_length : ∀ (n : Nat) (s : IS), (numsRead n s).1.length = n
  | 0, _ => rfl
  | n + 1, s => by simp only [numsRead, List.length_cons, numsRead_length n]

theorem altsRead_length : ∀ (n : Nat) (s : IS), (altsRead n s).1.length = n
  | 0, _ => rfl
  | n + 1, s => by simp only [altsRead, List.length_cons, altsRead_length n]

theorem valueRead_shaped (sh : Shape) (s : IS) : Shaped sh (valueRead sh s).1 := by
  cases sh with
  | num => exact ⟨_, rfl⟩
  | arr n => exact ⟨_, rfl, numsRead_length n s⟩
  | vec =>
    simp only [valueRead]
    split
    · exact ⟨_, rfl⟩
    · exact ⟨_, rfl⟩
  | alt n => exact ⟨_, rfl, altsRead_length n s⟩

theorem valuesRead_shaped (sh : Shape) : ∀ (n : Nat) (s : IS), ∀ v ∈ (valuesRead sh n s).1, Shaped sh v
  | 0, _, v, h => by simp [valuesRead] at h
  | n + 1, s, v, h => by
    simp only [valuesRead, List.mem_cons] at h
    rcases h with rfl | h
    · exact valueRead_shaped sh s
    · exact valuesRead_shaped sh n _ v h

theorem tablesRead_shaped (sz : Nat) : ∀ (fs : List (Feat × Policy)) (s : IS),
    (tablesRead sz fs s).1.map Table.strat = fs ∧ ∀ t ∈ (tablesRead sz fs s).1, ∀ v ∈ t.vals, Shaped t.strat.1.shape v
  | [], s => ⟨rfl, by simp [tablesRead]⟩
  | f :: fs, s => by
    simp only [tablesRead]
    obtain ⟨h1, h2⟩ := tablesRead_shaped sz fs (if s.fail then ([], s) else valuesRead f.1.shape sz s).2
    refine ⟨by rw [List.map_cons, h1], ?_⟩
    intro t ht v hv
    rcases List.mem_cons.1 ht with rfl | ht
    · simp only [] at hv
      split at hv
      · simp at hv
      · exact valuesRead_shaped _ _ _ v hv
    · exact h2 t ht v hv

theorem datasRead_shaped (s : IS) : (datasRead s).1.tables.map Table.strat = registered ∧
    ∀ t ∈ (datasRead s).1.tables, ∀ v ∈ t.vals, Shaped t.strat.1.shape v :=
  tablesRead_shaped _ _ _

theorem loadDatas_shaped {f : TextFile} {d : Datas} (h : loadDatas f = .ok d) : d.tables.map Table.strat = registered ∧
    ∀ t ∈ d.tables, ∀ v ∈ t.vals, Shaped t.strat.1.shape v := by
  unfold loadDatas at h
  obtain ⟨s, _, h⟩ := Res.bind_eq_ok.1 h
  obtain ⟨_, _, h⟩ := Res.bind_eq_ok.1 h
  cases h
  exact datasRead_shaped s

theorem get_any {d : Datas} (h : d.tables.map Table.strat = registered) {s : Feat × Policy} (hs : s ∈ registered) :
    ∃ t ∈ d.tables, t.strat = s ∧ d.get s = t.vals := by
  rw [← h] at hs
  obtain ⟨t, ht, hts⟩ := List.mem_map.1 hs
  unfold Datas.get
  have : (d.tables.find? fun t => decide (t.strat = s)).isSome := by
    rw [List.find?_isSome]
    exact ⟨t, ht, by simpa using hts⟩
  obtain ⟨u, hu⟩ := Option.isSome_iff_exists.1 this
  rw [hu]
  have := List.find?_some hu
  exact ⟨u, List.mem_of_find?_eq_some hu, by simpa using this, rfl⟩

/-- The tables of a file that is whole. -/
structure Tabs (d : Datas) (n : Nat) : Prop where
  strats : d.tables.map Table.strat = registered
  len : ∀ s ∈ registered, (d.get s).length = n
  shaped : ∀ s ∈ registered, ∀ v ∈ d.get s, Shaped s.1.shape v

theorem tabs_of {f : TextFile} {d : Datas} (h : loadDatas f = .ok d) (hw : Whole d) : Tabs d d.size := by
  obtain ⟨h1, h2⟩ := loadDatas_shaped h
  refine ⟨h1, ?_, ?_⟩
  · intro s hs
    obtain ⟨t, ht, _, e⟩ := get_any h1 hs
    rw [e]
    exact hw t ht
  · intro s hs
    obtain ⟨t, ht, rfl, e⟩ := get_any h1 hs
    rw [e]
    exact h2 t ht

/-! ## The comparison of zones -/

theorem pzSum_any (a b : List Nat) (s : Nat) (hl : a.length = b.length) (hp : ∀ p ∈ a.zip b, 0 < p.1 + p.2 ∧ p.1 + p.2 < W32)
    (hs : s + 100 * a.length < W32) : ∃ t, pzSum a b s = .ok t ∧ t ≤ s + 100 * a.length := by
  induction a generalizing b s with
  | nil => exact ⟨s, by cases b <;> rfl, by simp⟩
  | cons x a ih =>
    cases b with
    | nil => exact absurd hl (by simp)
    | cons y b =>
      obtain ⟨h1, h2⟩ := hp (x, y) (by simp)
      simp only [] at h1 h2
      simp only [List.length_cons] at hs hl ⊢
      have e1 : uadd x y = x + y := Nat.mod_eq_of_lt h2
      have hq : x * 100 % W32 / (x + y) ≤ 100 := by
        rcases Nat.lt_or_ge (x * 100) W32 with hlt | hge
        · rw [Nat.mod_eq_of_lt hlt]
          refine Nat.div_le_of_le_mul ?_
          have := Nat.mul_le_mul_right 100 (show x ≤ x + y by omega)
          exact this
        · have hm : x * 100 % W32 < W32 := Nat.mod_lt _ (by decide)
          refine Nat.div_le_of_le_mul ?_
          have := Nat.mul_le_mul_right 100 (show x ≤ x + y by omega)
          omega
      unfold pzSum
      have e2 : udiv (umul x 100) (uadd x y) = .ok (x * 100 % W32 / (x + y)) := by
        rw [e1]
        unfold udiv umul
        rw [if_neg (by omega)]
      rw [e2, Res.ok_bind]
      have e3 : uadd s (x * 100 % W32 / (x + y)) = s + x * 100 % W32 / (x + y) := Nat.mod_eq_of_lt (by omega)
      rw [e3]
      obtain ⟨t, et, ht⟩ := ih b (s + x * 100 % W32 / (x + y)) (by omega) (fun p hp' => hp p (by simp [hp'])) (by omega)
      exact ⟨t, et, by omega⟩

theorem pz_any (a b : List Nat) (hl : b.length * 100 < W32) (hp : ∀ p ∈ a.zip b, 0 < p.1 + p.2 ∧ p.1 + p.2 < W32) :
    ∃ n, pzCompute a b = .ok n ∧ n ≤ 100 := by
  unfold pzCompute
  by_cases h : a.length = b.length
  · rw [if_neg (by simpa using h)]
    by_cases he : a.isEmpty
    · rw [if_pos he]; exact ⟨100, rfl, by omega⟩
    · rw [if_neg he]
      have hpos : 0 < a.length := by
        cases a with
        | nil => exact absurd rfl he
        | cons x a => simp
      obtain ⟨t, et, ht⟩ := pzSum_any a b 0 h hp (by omega)
      rw [et, Res.ok_bind]
      have e : udiv t a.length = .ok (t / a.length) := by
        unfold udiv
        rw [if_neg (by omega)]
      rw [e, Res.ok_bind]
      have hle : t / a.length ≤ 100 := Nat.div_le_of_le_mul (by rw [Nat.mul_comm]; omega)
      generalize t / a.length = q at hle
      unfold computeRel
      have e1 : (if q < 50 then usub 50 q else usub q 50) = (if q < 50 then 50 - q else q - 50) := by
        by_cases hq : q < 50
        · rw [if_pos hq, if_pos hq]
          unfold usub
          simp only [W32] at *
          omega
        · rw [if_neg hq, if_neg hq]
          unfold usub
          simp only [W32] at *
          omega
      rw [e1]
      obtain ⟨c, hc⟩ : ∃ c, c = (if q < 50 then 50 - q else q - 50) := ⟨_, rfl⟩
      rw [← hc]
      have hcl : c ≤ 50 := by
        rw [hc]; split <;> omega
      have e2 : udiv (umul c 100) 100 = .ok c := by
        unfold udiv umul
        rw [if_neg (by decide)]
        simp only [W32]
        congr 1
        omega
      rw [e2, Res.ok_bind]
      have e3 : usub 100 c = 100 - c := by
        unfold usub
        simp only [W32]
        omega
      rw [e3]
      refine ⟨100 - c, ?_, by omega⟩
      simp only [assert]
      rw [if_pos (by simp)]
      rfl
  · rw [if_pos h]
    exact ⟨0, rfl, by omega⟩

/-! ## The tables of the program -/

theorem simple_any {d : Datas} {n : Nat} (h : Tabs d n) {s : Feat × Policy} (hs : s ∈ simpleStrats) (val : Simple → Nat)
    (hv : val (d.simple s) ≤ s.1.k) : SimpleOk val n (d.simple s) := by
  have hk := feat_k s.1
  refine ⟨?_, ?_, ?_, ?_⟩
  · show 0 < s.1.k; omega
  · show s.1.k * 100 < W32; simp only [W32]; omega
  · show ((d.get s).map Value.toNum).length = _
    rw [List.length_map, h.len s (simpleStrats_registered hs)]
  · show _ + s.1.k / 10 < W32; simp only [W32]; omega

theorem hbar_any {d : Datas} {n : Nat} (h : Tabs d n) {p : Policy} (hp : (Feat.hbar, p) ∈ registered) {a r : Image} (ha : Sized a)
    (hr : Sized r) : Safe (d.strat (.hbar, p)) a r n := by
  obtain ⟨m, e⟩ := feature_hbar ha hr p
  refine ⟨?_, m, ?_, ?_⟩
  · show ((d.get (.hbar, p)).map Value.toNum).length = _
    rw [List.length_map, h.len _ hp]
  · show (do return (← loadStrat (.hbar, p) a r).toNum : Res Nat) = _
    rw [loadStrat_eq, e]; rfl
  · intro w _
    obtain ⟨c, ec, hc⟩ := C24_equal.1.percent m w trivial
    exact ⟨⟨c, ec, hc⟩, _, rfl⟩

theorem alternations_any {d : Datas} {n : Nat} (h : Tabs d n) {a r : Image} (ha : Sized a) (hr : Sized r) :
    Safe (d.strat (.alternations, .img)) a r n := by
  obtain ⟨l, e, hl⟩ := feature_alternations ha hr
  have hreg : (Feat.alternations, Policy.img) ∈ registered := by decide
  refine ⟨?_, l, ?_, ?_⟩
  · show ((d.get (.alternations, .img)).map Value.toAlt).length = _
    rw [List.length_map, h.len _ hreg]
  · show (do return (← loadStrat (.alternations, .img) a r).toAlt : Res _) = _
    rw [loadStrat_eq, e]; rfl
  · intro w hw
    obtain ⟨v, hv, rfl⟩ := List.mem_map.1 hw
    obtain ⟨l', rfl, hl'⟩ : ∃ l', v = .alt l' ∧ l'.length = 7 := h.shaped _ hreg v hv
    obtain ⟨⟨t1, _, t3⟩, _⟩ := C24_array (Bool × Nat) 7 (by decide) (by decide)
    obtain ⟨c, ec, hc⟩ := t1 l l' ⟨hl, hl'⟩
    have ec2 := t3 l l' ⟨hl, hl'⟩
    rw [ec] at ec2
    exact ⟨⟨c, ec, hc⟩, _, array_inDist ec2.symm _⟩

/-- Each test of each glyph is defined. -/
theorem exclusive_any {d : Datas} {n : Nat} (h : Tabs d n) (hb : NoWrap d) {a r : Image} (ha : Sized a)
    (hd : Divides d a) {t : Strat} (ht : t ∈ exclusiveStrats.map d.strat) {j : Nat} (hj : j < n) : ∃ b, testRun t a r j = .ok b := by
  obtain ⟨s, hs, rfl⟩ := List.mem_map.1 ht
  simp only [exclusiveStrats, List.mem_cons, List.not_mem_nil, or_false] at hs
  rcases hs with rfl | rfl
  · have hreg : (Feat.zone, Policy.img) ∈ registered := by decide
    obtain ⟨y, ey, hy⟩ := feature_zone ha r
    have e1 : (d.strat (.zone, .img)).load a r = .ok y := by
      show (do return (← loadStrat (.zone, .img) a r).toArr : Res (List Nat)) = _
      rw [loadStrat_eq, ey]; rfl
    have hlt : j < (d.get (.zone, .img)).length := by rw [h.len _ hreg]; exact hj
    obtain ⟨x, ex, hx⟩ : ∃ l, (d.get (.zone, .img))[j] = .arr l ∧ l.length = 7 := h.shaped _ hreg _ (List.getElem_mem hlt)
    have e2 : rd (d.strat (.zone, .img)).tab j = .ok x :=
      rd_of_getElem? (by
        show ((d.get (.zone, .img)).map Value.toArr)[j]? = some x
        rw [List.getElem?_map, List.getElem?_eq_getElem hlt, ex]; rfl)
    exact ⟨_, (testRun_eq e1 e2).trans (array_inDist (arrayRel_agree hx hy).1 _)⟩
  · have hreg : (Feat.propZone, Policy.img) ∈ registered := by decide
    obtain ⟨_, y, _, ey, _, hle, hlen, _, _⟩ := propZone_thin a ha.wf ha.w ha.h ha.area
    have e1 : (d.strat (.propZone, .img)).load a r = .ok y := by
      show (do return (← loadStrat (.propZone, .img) a r).toArr : Res (List Nat)) = _
      rw [loadStrat_eq, feature_propZone ey]; rfl
    have hlt : j < (d.get (.propZone, .img)).length := by rw [h.len _ hreg]; exact hj
    obtain ⟨x, ex⟩ : ∃ l, (d.get (.propZone, .img))[j] = .arr l := h.shaped _ hreg _ (List.getElem_mem hlt)
    have e2 : rd (d.strat (.propZone, .img)).tab j = .ok x :=
      rd_of_getElem? (by
        show ((d.get (.propZone, .img)).map Value.toArr)[j]? = some x
        rw [List.getElem?_map, List.getElem?_eq_getElem hlt, ex]; rfl)
    have hmem : ∀ z ∈ x, BorderPart d z := by
      intro z hz
      obtain ⟨t, ht, e, ev⟩ := get_any h.strats hreg
      refine ⟨t, ht, e, x, ?_, hz⟩
      rw [← ev, ← ex]
      exact List.getElem_mem hlt
    obtain ⟨c, ec, _⟩ := pz_any x y hlen (by
      intro p hp
      have hx := List.of_mem_zip hp
      have h1 := hb p.1 (hmem _ hx.1)
      have h2 := hle p.2 hx.2
      constructor
      · rcases hd with hd | hd
        · have := hd p.1 (hmem _ hx.1); omega
        · have := hd y ey p.2 hx.2; omega
      · simp only [W32]; omega)
    exact ⟨_, (testRun_eq e1 e2).trans (pz_inDist ec _)⟩

theorem not_broken {ss : List Strat} {a r : Image} {j : Nat} (h : ∀ t ∈ ss, ∃ b, testRun t a r j = .ok b) : ¬ Broken ss a r j := by
  rintro ⟨s1, s, s2, e, _, hn⟩
  obtain ⟨b, hb⟩ := h s (by rw [e]; simp)
  exact hn b hb

variable {P : Type} [Dbl P]

/-- With any features that are whole the letters can be compared. -/
theorem setup_any (S : StdSort) {glyphs : List (List View)} {bw : List (List Nat)} {d : Datas} (h : Tabs d glyphs.length)
    (hn : NoWrap d) (hb : dataIndexesByWords glyphs = .ok bw) (he : [] ∉ glyphs) {a r : Image} (ha : Sized a) (hr : a.rotate90 = .ok r)
    (hd : Divides d a) : SetupOk (setupOf S glyphs d bw : Setup P) (valOf a r) glyphs.length a r := by
  have hl := ha.rotated hr
  obtain ⟨t, e1, e2, e3, _⟩ := C33_by_words glyphs he
  rw [hb] at e1
  cases e1
  have hin : ∀ l ∈ bw, ∀ j ∈ l, j < glyphs.length := by
    intro l hlm j hj
    obtain ⟨g, hg, rfl⟩ := List.mem_iff_getElem.1 hlm
    obtain ⟨r, h1, _, h3⟩ := e3 g (by omega)
    rw [List.getElem?_eq_getElem hg, Option.some.injEq] at h1
    rw [h1] at hj
    exact ((h3 j).1 hj).1
  have hs : ∀ t ∈ (setupOf S glyphs d bw : Setup P).first :: (setupOf S glyphs d bw : Setup P).simple,
      t.load a r = .ok (valOf a r t) ∧ SimpleOk (valOf a r) glyphs.length t := by
    intro t ht
    have : t ∈ simpleStrats.map d.simple := ht
    obtain ⟨s, hs, rfl⟩ := List.mem_map.1 this
    obtain ⟨m, _, e, hk⟩ := simple_load d hs ha hl
    have hv : valOf a r (d.simple s) = m := by
      unfold valOf
      rw [e]
      rfl
    exact ⟨by rw [hv]; exact e, simple_any h hs _ (by rw [hv]; exact hk)⟩
  refine ⟨⟨fun t ht => (hs t ht).1, fun t ht => (hs t ht).2, ?_, ?_, Nat.le_refl _, Nat.le_refl _, rfl, e2, hin, rfl, ?_⟩, ?_⟩
  · intro t ht
    obtain ⟨s, hs, rfl⟩ := List.mem_map.1 (ht : t ∈ complexStrats.map d.strat)
    simp only [complexStrats, List.mem_cons, List.not_mem_nil, or_false] at hs
    rcases hs with rfl | rfl | rfl
    · exact hbar_any h (by decide) ha hl
    · exact hbar_any h (by decide) ha hl
    · exact alternations_any h ha hl
  · intro t ht
    obtain ⟨s, hs, rfl⟩ := List.mem_map.1 (ht : t ∈ exclusiveStrats.map d.strat)
    simp only [exclusiveStrats, List.mem_cons, List.not_mem_nil, or_false] at hs
    rcases hs with rfl | rfl
    · obtain ⟨y, ey, _⟩ := feature_zone ha r
      refine ⟨y, ?_⟩
      show (do return (← loadStrat (.zone, .img) a r).toArr : Res (List Nat)) = _
      rw [loadStrat_eq, ey]; rfl
    · obtain ⟨_, l, _, e, _⟩ := propZone_thin a ha.wf ha.w ha.h ha.area
      refine ⟨l, ?_⟩
      show (do return (← loadStrat (.propZone, .img) a r).toArr : Res (List Nat)) = _
      rw [loadStrat_eq, feature_propZone e]; rfl
  · obtain ⟨_, _, _, h3, _⟩ := viewsIndexes_sorted S glyphs
    exact h3
  · intro U _ _ p _ _
    rintro ⟨pre, j, post, eb, _, hbr⟩
    refine not_broken (fun t ht => exclusive_any h hn ha hd ht ?_) hbr
    have hbw : (setupOf S glyphs d bw : Setup P).byWords = bw := rfl
    rw [hbw] at eb
    by_cases hp : p.1 < bw.length
    · have hj : j ∈ bw[p.1] := by
        rw [List.getD_eq_getElem?_getD, List.getElem?_eq_getElem hp] at eb
        have eb : bw[p.1] = pre ++ j :: post := eb
        rw [eb]; simp
      exact hin _ (List.getElem_mem hp) j hj
    · rw [List.getD_eq_getElem?_getD, List.getElem?_eq_none (by omega)] at eb
      simp at eb

end Ppocr

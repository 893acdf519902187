import Verif.Proofs.Registry
import Verif.Proofs.DatasOrder
import Verif.Model.Std

/-! # C26, C27, C53: cached contexts and tables of features -/

namespace Ppocr.Props
open Ppocr Spec

/-! ## C26 -/

/-- **C26**: whatever a context contains, once it has been reset for a new image every sequence of loads,
with a reset before each new image, gives the values computed without any cache, for both policies; it
fails exactly when the uncached computation does. -/
theorem C26_contexts (ops : List CtxOp) (i r i₀ r₀ : Image) (c : Ctxs) :
    runOps (.start i r :: ops) i₀ r₀ c = values (.start i r :: ops) i₀ r₀ :=
  runOps_eq ops i r c.reset (ctxInv_reset c i r)

/-- A context just constructed needs no reset. -/
theorem C26_fresh (ops : List CtxOp) (i r : Image) : runOps ops i r Ctxs.fresh = values ops i r := by
  apply runOps_eq
  have := ctxInv_reset Ctxs.fresh i r
  exact this

/-- A letter T and a point, with their rotations. -/
def smallT : Image := ⟨⟨3, 2⟩, [120, 120, 120, 45, 120, 45]⟩
def smallT90 : Image := ⟨⟨2, 3⟩, [120, 45, 120, 120, 120, 45]⟩
def smallBar : Image := ⟨⟨1, 2⟩, [120, 45]⟩
def smallBar90 : Image := ⟨⟨2, 1⟩, [120, 45]⟩

example : smallT.rotate90 = .ok smallT90 := by decide
example : smallBar.rotate90 = .ok smallBar90 := by decide

/-- Two images, three strategies sharing two contexts. -/
example : runOps [.start smallT smallT90, .load (.hdirection, .img), .load (.hdirection2, .img),
      .load (.hdirection, .img90), .start smallBar smallBar90, .load (.hdirection, .img),
      .load (.zone, .img)] smallBar smallBar90 Ctxs.fresh =
    .ok [.num 150, .num 83, .num 100, .num 200, .arr [1, 0, 0, 1, 1, 1, 0]] := by decide

/-- Without the reset the value of the previous image would be returned. -/
example : (do
    let (_, c) ← stratLoad (.hdirection, .img) smallT smallT90 Ctxs.fresh
    let (v, _) ← stratLoad (.hdirection, .img) smallBar smallBar90 c
    return v) = .ok (.num 150) ∧
    feature (.hdirection, .img) smallBar smallBar90 = .ok (.num 200) := by decide

/-! ## C27 -/

/-- **C27**: if every feature of every image can be computed, loading the images succeeds; afterwards every
table holds its previous entries followed by the feature of each image in turn. -/
theorem C27_tables (val : Feat × Policy → Image → Value) (imgs : List Image) (d : Datas)
    (h : ∀ img ∈ imgs, ∃ r, img.rotate90 = .ok r ∧
      ∀ t ∈ d.tables, feature t.strat img r = .ok (val t.strat img)) :
    ∃ d', d.loadAll imgs = .ok d' ∧
      d'.tables = d.tables.map fun t => ⟨t.strat, t.vals ++ imgs.map (val t.strat)⟩ := by
  obtain ⟨c, e⟩ := loadAll_ok val imgs d h
  exact ⟨_, e, rfl⟩

/-- **C27** for the strategies of the program: every list of images of a reasonable size can be loaded in
an empty `PpOcrDatas`; there is one table for each of the 25 strategies, in their order, and each has as
many entries as there are images, the `k`-th one being the feature of the `k`-th image. -/
theorem C27_registry (imgs : List Image) (h : ∀ i ∈ imgs, Sized i) :
    ∃ d, Datas.empty.loadAll imgs = .ok d ∧
      d.tables.map Table.strat = registered ∧
      ∀ t ∈ d.tables, t.vals.length = imgs.length ∧
        ∀ (k : Nat) (i r : Image), imgs[k]? = some i → i.rotate90 = .ok r →
          ∃ v, t.vals[k]? = some v ∧ feature t.strat i r = .ok v := by
  classical
  let rot : Image → Image := fun i => if h : ∃ r, i.rotate90 = .ok r then h.choose else i
  let val : Feat × Policy → Image → Value :=
    fun s i => if h : ∃ v, feature s i (rot i) = .ok v then h.choose else .num 0
  have hrot : ∀ i r, i.rotate90 = .ok r → rot i = r := by
    intro i r e
    have he : ∃ r, i.rotate90 = .ok r := ⟨r, e⟩
    have : rot i = he.choose := dif_pos he
    have h2 := e.symm.trans he.choose_spec
    rw [this]
    exact (Res.ok.inj h2).symm
  have hval : ∀ s i r, Sized i → i.rotate90 = .ok r → feature s i r = .ok (val s i) := by
    intro s i r hi e
    obtain ⟨r', e', hr, _⟩ := hi.rotate
    rw [e] at e'
    cases e'
    have hv : ∃ v, feature s i (rot i) = .ok v := by
      rw [hrot i r e]
      exact feature_ok s hi hr
    have : val s i = hv.choose := dif_pos hv
    rw [this, ← hrot i r e]
    exact hv.choose_spec
  obtain ⟨d, e, ht⟩ := C27_tables val imgs Datas.empty (by
    intro i hi
    obtain ⟨r, e, _⟩ := (h i hi).rotate
    exact ⟨r, e, fun t _ => hval t.strat i r (h i hi) e⟩)
  refine ⟨d, e, ?_, ?_⟩
  · rw [ht, List.map_map]
    show Datas.empty.tables.map Table.strat = _
    rfl
  · intro t hm
    rw [ht] at hm
    obtain ⟨t0, h0, rfl⟩ := List.mem_map.1 hm
    have hv : t0.vals = [] := by
      obtain ⟨s, _, rfl⟩ := List.mem_map.1 (h0 : t0 ∈ (Datas.empty).tables)
      rfl
    simp only [hv, List.nil_append, List.length_map, true_and]
    intro k i r hk hr
    refine ⟨val t0.strat i, ?_, hval _ i r (h i (List.mem_of_getElem? hk)) hr⟩
    rw [List.getElem?_map, hk]
    rfl

set_option maxRecDepth 4000 in
/-- The sizes met in practice are fine. -/
example : Sized smallT ∧ ∀ d : List Pixel, d.length = 300 * 300 → Sized ⟨⟨300, 300⟩, d⟩ := by
  refine ⟨⟨⟨rfl, by decide, by decide, by decide⟩, by decide, by decide, by decide, by decide⟩, ?_⟩
  intro d h
  exact ⟨⟨h, (by decide : 300 * 300 < W32), (by decide : 300 < W32), (by decide : 300 < W32)⟩,
    (by decide : 0 < 300), (by decide : 0 < 300), (by decide : 100 * (300 * 300) + 100 < 2147483648),
    (by decide : 25 * (300 * 300 * (300 + 300 + 2)) < 4294967296)⟩

/-- The four tables of the shapes of values after two loads. -/
example : (do
    let d ← Datas.loadAll ⟨[⟨(.hdirection, .img90), []⟩, ⟨(.alternations, .img), []⟩, ⟨(.hbar, .img), [.num 7]⟩,
      ⟨(.propZone, .img), []⟩], Ctxs.fresh⟩ [smallT, smallBar]
    return d.tables) = .ok
      [⟨(.hdirection, .img90), [.num 100, .num 100]⟩,
       ⟨(.alternations, .img),
         [.alt [(true, 1), (false, 3), (false, 1), (false, 1), (true, 1), (true, 2), (true, 2)],
          .alt [(true, 1), (false, 1), (false, 1), (false, 1), (true, 2), (false, 1), (false, 1)]]⟩,
       ⟨(.hbar, .img), [.num 7, .num 1, .num 1]⟩,
       ⟨(.propZone, .img), [.arr [50, 50], .arr [100]]⟩] := by decide

/-! ## C53 -/

/-- **C53**, `Datas::eq`: on rows of the tables it tells whether every feature is the same; hence an
equivalence. -/
theorem C53_eq (d : Datas) (i j : Nat) (h0 : d.tables ≠ []) (hr : HasRows d.tables i j) :
    ∃ b, d.eq i j = .ok b ∧ (b = true ↔ row d.tables i = row d.tables j) := by
  refine ⟨_, cmp_eq d.tables i j hr h0, ?_⟩
  rw [decide_eq_true_eq]
  unfold row
  rw [List.map_inj_left]
  constructor
  · intro h t ht
    have := h t ht
    have hh := hr t ht
    unfold cell at this
    rw [List.getD_eq_getElem?_getD, List.getD_eq_getElem?_getD, List.getElem?_eq_getElem hh.1,
      List.getElem?_eq_getElem hh.2] at this
    rw [List.getElem?_eq_getElem hh.1, List.getElem?_eq_getElem hh.2]
    exact congrArg some this
  · intro h t ht
    have := h t ht
    unfold cell
    rw [List.getD_eq_getElem?_getD, List.getD_eq_getElem?_getD, this]

/-- What is claimed of `Datas::lt`: it is a strict weak ordering of the rows and it is lexicographic. -/
def C53_statement : Prop :=
  ∀ (ts : List Table) (n : Nat), ts ≠ [] → (∀ t ∈ ts, t.vals.length = n) →
    (∀ i j, i < n → j < n →
      ∃ b, Datas.lt ⟨ts, Ctxs.fresh⟩ i j = .ok b ∧ (b = true ↔ LexLt ts i j)) ∧
    ∃ lt : Nat → Nat → Bool, StrictWeak lt ∧
      ∀ i j, i < n → j < n → Datas.lt ⟨ts, Ctxs.fresh⟩ i j = .ok (lt i j)

/-- Three glyphs, two features: (0, 0), (1, 0) and (0, 1). -/
def threeRows : List Table :=
  [⟨(.density, .img), [.num 0, .num 1, .num 0]⟩, ⟨(.hbar, .img), [.num 0, .num 0, .num 1]⟩]

/-- The row (0, 0) is lexicographically before (1, 0) but `lt` says neither is before the other. -/
theorem C53_not_lexicographic : LexLt threeRows 0 1 ∧
    Datas.lt ⟨threeRows, Ctxs.fresh⟩ 0 1 = .ok false ∧ Datas.lt ⟨threeRows, Ctxs.fresh⟩ 1 0 = .ok false := by
  refine ⟨⟨0, _, rfl, rfl, ?_⟩, by decide, by decide⟩
  intro l u hl
  exact absurd hl (by omega)

/-- No strict weak ordering agrees with `lt`: 0 and 1 are equivalent, 1 and 2 are equivalent, yet 0 is
before 2. Sorting rows with it is undefined behaviour. -/
theorem C53_not_strict_weak : ¬ ∃ lt : Nat → Nat → Bool, StrictWeak lt ∧
    ∀ i j, i < 3 → j < 3 → Datas.lt ⟨threeRows, Ctxs.fresh⟩ i j = .ok (lt i j) := by
  rintro ⟨lt, sw, h⟩
  have e : ∀ i j b, i < 3 → j < 3 → Datas.lt ⟨threeRows, Ctxs.fresh⟩ i j = .ok b → lt i j = b := by
    intro i j b hi hj hb
    have := h i j hi hj
    rw [hb] at this
    exact (Res.ok.inj this).symm
  have h01 := e 0 1 false (by omega) (by omega) (by decide)
  have h10 := e 1 0 false (by omega) (by omega) (by decide)
  have h12 := e 1 2 false (by omega) (by omega) (by decide)
  have h21 := e 2 1 false (by omega) (by omega) (by decide)
  have h02 := e 0 2 true (by omega) (by omega) (by decide)
  have := (sw.incomp 0 1 2 h01 h10 h12 h21).1
  rw [h02] at this
  exact absurd this (by decide)

theorem C53_wrong_lt : ¬ C53_statement := by
  intro h
  exact C53_not_strict_weak (h threeRows 3 (by decide) (by decide)).2

/-- **C53**, what remains of `Datas::lt`: it is defined on all rows, a strict partial order, and it implies
that the rows differ; it is the lexicographic order when there is one table only.
Missing: comparing rows that differ in opposite directions, and rows equal in the last feature. -/
theorem C53_lt_partial (d : Datas) (n : Nat) (h0 : d.tables ≠ []) (hn : ∀ t ∈ d.tables, t.vals.length = n) :
    ∃ lt : Nat → Nat → Bool,
      (∀ i j, i < n → j < n → d.lt i j = .ok (lt i j)) ∧
      (∀ i, i < n → lt i i = false) ∧
      (∀ i j k, i < n → j < n → k < n → lt i j = true → lt j k = true → lt i k = true) ∧
      (∀ i j, i < n → j < n → lt i j = true → row d.tables i ≠ row d.tables j) ∧
      (∀ i j t, i < n → j < n → d.tables = [t] → (lt i j = true ↔ LexLt d.tables i j)) := by
  classical
  refine ⟨fun i j => decide (allLe d.tables i j), ?_, ?_, ?_, ?_, ?_⟩
  · intro i j hi hj
    obtain ⟨b, e, hb⟩ := cmp_lt d.tables i j (fun t ht => by rw [hn t ht]; exact ⟨hi, hj⟩) h0
    show cmpDatas _ _ i j d.tables = _
    rw [e]
    congr 1
    rw [Bool.eq_iff_iff, hb, decide_eq_true_eq]
  · intro i _
    exact decide_eq_false (allLe_irrefl _ h0 i)
  · intro i j k _ _ _ h1 h2
    rw [decide_eq_true_eq] at *
    exact allLe_trans _ i j k h1 h2
  · intro i j hi hj h heq
    rw [decide_eq_true_eq] at h
    have hl := h.2 (d.tables.getLast h0) (by rw [List.getLast?_eq_some_getLast h0]; rfl)
    unfold row at heq
    rw [List.map_inj_left] at heq
    have := heq _ (List.getLast_mem h0)
    unfold cell at hl
    rw [List.getD_eq_getElem?_getD, List.getD_eq_getElem?_getD, this, Value.lt_irrefl] at hl
    exact absurd hl (by simp)
  · intro i j t _ _ ht
    rw [decide_eq_true_eq, ht]
    unfold allLe LexLt
    constructor
    · intro h
      exact ⟨0, t, rfl, h.2 t rfl, fun l u hl => absurd hl (by omega)⟩
    · rintro ⟨k, u, hk, hlt, _⟩
      match k with
      | 0 =>
        simp only [List.getElem?_cons_zero, Option.some.injEq] at hk
        subst hk
        refine ⟨by simp, ?_⟩
        intro u hu
        cases hu
        exact hlt
      | k + 1 => simp at hk

example : Datas.lt ⟨threeRows, Ctxs.fresh⟩ 0 2 = .ok true ∧ Datas.eq ⟨threeRows, Ctxs.fresh⟩ 0 2 = .ok false ∧
    Datas.eq ⟨threeRows, Ctxs.fresh⟩ 1 1 = .ok true := by decide

end Ppocr.Props

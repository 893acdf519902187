import Verif.Spec.Setup
import Verif.Props.Datas
import Verif.Props.Relationship
import Verif.Props.Ocr2

/-! # Helper lemmas: the tables of the program are sound -/

namespace Ppocr
open Spec Props

theorem learnt_loadAll (imgs : List Image) (h : ∀ i ∈ imgs, Sized i) :
    ∃ d, Datas.empty.loadAll imgs = .ok d ∧ Learnt imgs d := by
  obtain ⟨d, e, h1, h2⟩ := C27_registry imgs h
  exact ⟨d, e, h1, h2⟩

theorem get_table {imgs : List Image} {d : Datas} (h : Learnt imgs d) {s : Feat × Policy} (hs : s ∈ registered) :
    ∃ t ∈ d.tables, t.strat = s ∧ d.get s = t.vals := by
  rw [← h.strats] at hs
  obtain ⟨t, ht, hts⟩ := List.mem_map.1 hs
  unfold Datas.get
  have : (d.tables.find? fun t => decide (t.strat = s)).isSome := by
    rw [List.find?_isSome]
    exact ⟨t, ht, by simpa using hts⟩
  obtain ⟨u, hu⟩ := Option.isSome_iff_exists.1 this
  rw [hu]
  have := List.find?_some hu
  exact ⟨u, List.mem_of_find?_eq_some hu, by simpa using this, rfl⟩

theorem get_learnt {imgs : List Image} {d : Datas} (h : Learnt imgs d) {s : Feat × Policy} (hs : s ∈ registered) :
    (d.get s).length = imgs.length ∧
    ∀ (k : Nat) (i r : Image), imgs[k]? = some i → i.rotate90 = .ok r → ∃ v, (d.get s)[k]? = some v ∧ feature s i r = .ok v := by
  obtain ⟨t, ht, rfl, e⟩ := get_table h hs
  rw [e]
  exact h.rows t ht

/-- Every entry is a feature of a learnt picture. -/
theorem get_mem {imgs : List Image} {d : Datas} (h : Learnt imgs d) (hi : ∀ i ∈ imgs, Sized i) {s : Feat × Policy}
    (hs : s ∈ registered) {v : Value} (hv : v ∈ d.get s) :
    ∃ i r, i ∈ imgs ∧ Sized i ∧ Sized r ∧ i.rotate90 = .ok r ∧ feature s i r = .ok v := by
  obtain ⟨h1, h2⟩ := get_learnt h hs
  obtain ⟨k, hk, rfl⟩ := List.mem_iff_getElem.1 hv
  have hk' : k < imgs.length := by omega
  have hl := hi _ (List.getElem_mem hk')
  obtain ⟨r, er, hr, hw, hh⟩ := hl.rotate
  obtain ⟨v, e1, e2⟩ := h2 k _ r (List.getElem?_eq_getElem hk') er
  rw [List.getElem?_eq_getElem hk] at e1
  refine ⟨imgs[k], r, List.getElem_mem hk', hl, hr, er, ?_⟩
  · rw [e2]; exact congrArg _ (Option.some.inj e1).symm

theorem Spec.Sized.rotated {i r : Image} (h : Sized i) (e : i.rotate90 = .ok r) : Sized r := by
  obtain ⟨r', er, hr, hw, hh⟩ := h.rotate
  rw [e] at er
  cases er
  exact hr

theorem loadStrat_eq (s : Feat × Policy) (i r : Image) : loadStrat s i r = feature s i r := by
  have := stratLoad_agrees s i r Ctxs.fresh (ctxInv_reset Ctxs.fresh i r)
  unfold loadStrat
  rcases this with ⟨v, c, e1, e2, _⟩ | ⟨h, e⟩
  · rw [e1, e2]; rfl
  · rw [e]
    cases feature s i r <;> first | rfl | exact absurd rfl (h _)

/-- A simple feature of a letter. -/
theorem feature_simple {s : Feat × Policy} (hs : s ∈ simpleStrats) {i r : Image} (hi : Sized i) (hr : Sized r) :
    ∃ n, feature s i r = .ok (.num n) ∧ n ≤ s.1.k := by
  have hf : s.1.isSimple = true := by
    revert s
    decide
  obtain ⟨f, p⟩ := s
  cases p with
  | img => exact load_simple f hf hi r
  | img90 => exact load_simple f hf hr i

theorem feature_propZone {i r : Image} {l : List Nat} (e : propZoneLoad i = .ok l) : feature (.propZone, .img) i r = .ok (.arr l) := by
  show (do return .arr (← propZoneLoad i) : Res Value) = _
  rw [e]; rfl

theorem clash_symm {i j : Image} (h : Clash i j) : Clash j i := by
  obtain ⟨F, G, h1, h2, h3, h4, h5⟩ := h
  exact ⟨G, F, h2, h1, h3.symm, h5, h4⟩

/-- A picture with width and height at most 50 together can be compared with every picture. -/
theorem clash_small {i j : Image} (h : Sized i) (hs : i.bounds.w + i.bounds.h ≤ 50) : ¬ Clash i j := by
  rintro ⟨F, G, hF, _, _, hf, _⟩
  obtain ⟨r, e, hr⟩ := C24_pz_small_images i h.wf h.w h.h hs
  obtain ⟨F', r', hF', e', _, _, _, _, hz⟩ := propZone_thin i h.wf h.w h.h h.area
  rw [e] at e'
  cases e'
  have := zoneList_unique hF hF'
  subst this
  have := (hr 0 (hz.2 hf)).1
  omega

/-- A picture of this size is within the limits of the strategies. -/
theorem sized_small {i : Image} (wf : i.WF) (hw : 0 < i.bounds.w) (hh : 0 < i.bounds.h) (hs : i.bounds.w + i.bounds.h ≤ 50) :
    Sized i := by
  have h1 : i.bounds.w * i.bounds.h ≤ 50 * 50 := Nat.mul_le_mul (by omega) (by omega)
  have h2 : i.bounds.w * i.bounds.h * (i.bounds.w + i.bounds.h + 2) ≤ 50 * 50 * 52 := Nat.mul_le_mul h1 (by omega)
  exact ⟨wf, hw, hh, by omega, by omega⟩

theorem comparable_small {imgs : List Image} {glyphs : List (List View)} {a : Image} (h : Sized a) (hs : a.bounds.w + a.bounds.h ≤ 50) :
    Comparable imgs glyphs a := by
  rintro ⟨_, _, _, _, _, _, _, _, _, _, _, _, _, hc⟩
  exact clash_small h hs (clash_symm hc)

theorem comparable_alike {imgs : List Image} {glyphs : List (List View)} {a : Image} {g : Nat} (h : AlikeGlyph imgs a g) :
    Comparable imgs glyphs a := fun hb => hb.1 g h

/-- The features of the other shapes. -/
theorem feature_hbar {i r : Image} (hi : Sized i) (hr : Sized r) (p : Policy) : ∃ n, feature (.hbar, p) i r = .ok (.num n) := by
  cases p with
  | img => exact load_hbar hi r
  | img90 => exact load_hbar hr i

theorem feature_zone {i : Image} (hi : Sized i) (r : Image) : ∃ l, feature (.zone, .img) i r = .ok (.arr l) ∧ l.length = 7 :=
  load_zone hi r

theorem feature_alternations {i r : Image} (hi : Sized i) (hr : Sized r) :
    ∃ l, feature (.alternations, .img) i r = .ok (.alt l) ∧ l.length = 7 :=
  load_alternations hi hr

theorem array_inDist {V : Type} [DecidableEq V] {a b : List V} {c : Nat} (h : (arrayRel V).compute a b = .ok c) (n : Nat) :
    (arrayRel V).inDist a b n = .ok (decide (c ≥ n)) := by
  have h : arrayCompute a b = .ok c := h
  simp only [arrayRel, h]
  rfl

theorem pz_inDist {a b : List Nat} {c : Nat} (h : pzRel.compute a b = .ok c) (n : Nat) :
    pzRel.inDist a b n = .ok (decide (c ≥ n)) := by
  have h : pzCompute a b = .ok c := h
  simp only [pzRel, h]
  rfl

section
variable {imgs : List Image} {d : Datas}

theorem simple_load (d : Datas) {s : Feat × Policy} (hs : s ∈ simpleStrats) {a r : Image} (ha : Sized a) (hr : Sized r) :
    ∃ n, feature s a r = .ok (.num n) ∧ (d.simple s).load a r = .ok n ∧ n ≤ (d.simple s).k := by
  obtain ⟨n, e, hn⟩ := feature_simple hs ha hr
  refine ⟨n, e, ?_, hn⟩
  show (do return (← loadStrat s a r).toNum : Res Nat) = _
  rw [loadStrat_eq, e]
  rfl

theorem simpleStrats_registered {s : Feat × Policy} (hs : s ∈ simpleStrats) : s ∈ registered := by
  revert s; decide

theorem feat_k (f : Feat) : f.k = 100 ∨ f.k = 200 := by cases f <;> simp [Feat.k]

theorem simple_ok (h : Learnt imgs d) {s : Feat × Policy} (hs : s ∈ simpleStrats) (val : Simple → Nat)
    (hv : val (d.simple s) ≤ s.1.k) : SimpleOk val imgs.length (d.simple s) := by
  have hk := feat_k s.1
  refine ⟨?_, ?_, ?_, ?_⟩
  · show 0 < s.1.k; omega
  · show s.1.k * 100 < W32; simp only [W32]; omega
  · show ((d.get s).map Value.toNum).length = _
    rw [List.length_map, (get_learnt h (simpleStrats_registered hs)).1]
  · show _ + s.1.k / 10 < W32; simp only [W32]; omega

theorem hbar_safe (h : Learnt imgs d) {p : Policy} (hp : (Feat.hbar, p) ∈ registered) {a r : Image} (ha : Sized a)
    (hr : Sized r) : Safe (d.strat (.hbar, p)) a r imgs.length := by
  obtain ⟨n, e⟩ := feature_hbar ha hr p
  refine ⟨?_, n, ?_, ?_⟩
  · show ((d.get (.hbar, p)).map Value.toNum).length = _
    rw [List.length_map, (get_learnt h hp).1]
  · show (do return (← loadStrat (.hbar, p) a r).toNum : Res Nat) = _
    rw [loadStrat_eq, e]; rfl
  · intro w _
    obtain ⟨c, ec, hc⟩ := C24_equal.1.percent n w trivial
    exact ⟨⟨c, ec, hc⟩, _, rfl⟩

theorem alternations_safe (h : Learnt imgs d) (hi : ∀ i ∈ imgs, Sized i) {a r : Image} (ha : Sized a) (hr : Sized r) :
    Safe (d.strat (.alternations, .img)) a r imgs.length := by
  obtain ⟨l, e, hl⟩ := feature_alternations ha hr
  have hreg : (Feat.alternations, Policy.img) ∈ registered := by decide
  refine ⟨?_, l, ?_, ?_⟩
  · show ((d.get (.alternations, .img)).map Value.toAlt).length = _
    rw [List.length_map, (get_learnt h hreg).1]
  · show (do return (← loadStrat (.alternations, .img) a r).toAlt : Res _) = _
    rw [loadStrat_eq, e]; rfl
  · intro w hw
    obtain ⟨v, hv, rfl⟩ := List.mem_map.1 hw
    obtain ⟨i, q, _, hi', hq, _, ev⟩ := get_mem h hi hreg hv
    obtain ⟨l', e', hl'⟩ := feature_alternations hi' hq
    rw [ev] at e'
    cases e'
    obtain ⟨⟨t1, _, t3⟩, _⟩ := C24_array (Bool × Nat) 7 (by decide) (by decide)
    obtain ⟨c, ec, hc⟩ := t1 l l' ⟨hl, hl'⟩
    have ec2 := t3 l l' ⟨hl, hl'⟩
    rw [ec] at ec2
    exact ⟨⟨c, ec, hc⟩, _, array_inDist ec2.symm _⟩

/-- The entry of a picture. -/
theorem get_entry (h : Learnt imgs d) {s : Feat × Policy} (hs : s ∈ registered) {j : Nat} {i q : Image} (hj : imgs[j]? = some i)
    (hq : i.rotate90 = .ok q) {v : Value} (e : feature s i q = .ok v) {V : Type} (f : Value → V) :
    rd ((d.get s).map f) j = .ok (f v) := by
  obtain ⟨v', e1, e2⟩ := (get_learnt h hs).2 j i q hj hq
  rw [e] at e2
  cases e2
  exact rd_of_getElem? (by rw [List.getElem?_map, e1]; rfl)

theorem arrayRel_agree {V : Type} [DecidableEq V] {x y : List V} (hx : x.length = 7) (hy : y.length = 7) :
    (arrayRel V).compute x y = .ok (agree x y * 100 / 7) ∧ agree x y ≤ 7 := by
  refine ⟨(C24_array V 7 (by decide) (by decide)).2 x y hx hy, ?_⟩
  unfold agree
  refine Nat.le_trans List.countP_le_length ?_
  rw [List.length_zip, hx, hy]
  exact Nat.le_refl _

theorem agree_comm {V : Type} [DecidableEq V] (x y : List V) : agree x y = agree y x := by
  unfold agree
  induction x generalizing y with
  | nil => simp
  | cons a x ih =>
    cases y with
    | nil => simp
    | cons b y =>
      simp only [List.zip_cons_cons, List.countP_cons, ih y]
      by_cases h : a = b
      · simp [h]
      · simp [h, Ne.symm h]

theorem testRun_eq {s : Strat} {a r : Image} {j : Nat} {v w : s.V} (e1 : s.load a r = .ok v) (e2 : rd s.tab j = .ok w) :
    testRun s a r j = s.rel.inDist w v (s.rel.count / 2) := by
  unfold testRun
  rw [e1, Res.ok_bind, e2, Res.ok_bind]

theorem simOf_of {s : Strat} {a r : Image} {j : Nat} {v w : s.V} {c : Nat} (e1 : s.load a r = .ok v) (e2 : rd s.tab j = .ok w)
    (e3 : s.rel.compute v w = .ok c) : simOf s a r j = c := by
  unfold simOf
  rw [e1, Res.ok_bind, e2, Res.ok_bind, e3]
  rfl

/-- The outcome of the test of the zones. -/
theorem zone_test (h : Learnt imgs d) {a : Image} (r : Image) (ha : Sized a) {j : Nat} {i q : Image}
    (hj : imgs[j]? = some i) (hi : Sized i) (hq : i.rotate90 = .ok q) :
    ∃ x y, feature (.zone, .img) i q = .ok (.arr x) ∧ feature (.zone, .img) a r = .ok (.arr y) ∧
      testRun (d.strat (.zone, .img)) a r j = .ok (decide (4 ≤ agree x y)) := by
  obtain ⟨x, ex, hx⟩ := feature_zone hi q
  obtain ⟨y, ey, hy⟩ := feature_zone ha r
  refine ⟨x, y, ex, ey, ?_⟩
  have e1 : (d.strat (.zone, .img)).load a r = .ok y := by
    show (do return (← loadStrat (.zone, .img) a r).toArr : Res (List Nat)) = _
    rw [loadStrat_eq, ey]; rfl
  have e2 : rd (d.strat (.zone, .img)).tab j = .ok x := get_entry h (by decide) hj hq ex Value.toArr
  obtain ⟨e3, h7⟩ := arrayRel_agree hx hy
  have := array_inDist e3 (101 / 2)
  refine (testRun_eq e1 e2).trans ?_
  show (arrayRel Nat).inDist x y (101 / 2) = _
  rw [this]
  generalize agree x y = n at *
  refine congrArg Res.ok (decide_eq_decide.2 ?_)
  omega

/-- The outcome of the test of the zones on the border. -/
theorem propZone_test (h : Learnt imgs d) {a r : Image} (ha : Sized a) {j : Nat} {i q : Image}
    (hj : imgs[j]? = some i) (hi : Sized i) (hq : i.rotate90 = .ok q) :
    ∃ (x y : List Nat), propZoneLoad i = .ok x ∧ propZoneLoad a = .ok y ∧
      (Clash i a → testRun (d.strat (.propZone, .img)) a r j = .ub) ∧
      (¬ Clash i a → testRun (d.strat (.propZone, .img)) a r j = .ok (decide (x.length = y.length))) := by
  obtain ⟨x, y, ex, ey, f1, f2⟩ := C24_pz_exact i a hi.wf ha.wf hi.w hi.h ha.w ha.h hi.area ha.area
  refine ⟨x, y, ex, ey, ?_⟩
  have e1 : (d.strat (.propZone, .img)).load a r = .ok y := by
    show (do return (← loadStrat (.propZone, .img) a r).toArr : Res (List Nat)) = _
    rw [loadStrat_eq, feature_propZone ey]; rfl
  have e2 : rd (d.strat (.propZone, .img)).tab j = .ok x := get_entry h (by decide) hj hq (feature_propZone ex) Value.toArr
  have e3 : testRun (d.strat (.propZone, .img)) a r j = pzRel.inDist x y (101 / 2) := testRun_eq e1 e2
  rw [e3]
  constructor
  · intro hc
    have : pzCompute x y = .ub := f1 hc
    simp only [pzRel, this]
    rfl
  · intro hc
    obtain ⟨n, e, _, h1, h2⟩ := f2 hc
    rw [pz_inDist e]
    refine congrArg Res.ok (decide_eq_decide.2 ⟨fun hn => ?_, h2⟩)
    apply Classical.byContradiction
    intro hne
    have := h1 hne
    omega

open Classical in
theorem propZone_length {i : Image} (hi : Sized i) {x F : List Nat} (e : propZoneLoad i = .ok x) (hF : ZoneList i F) :
    x.length = F.countP (fun f => decide (OnBorder i f)) := by
  obtain ⟨F', x', hF', e', _, _, _, hl, _⟩ := propZone_thin i hi.wf hi.w hi.h hi.area
  rw [e] at e'
  cases e'
  rw [zoneList_unique hF hF']
  exact hl

open Classical in
theorem sameZones_iff {i a ri ra : Image} (hi : Sized i) (ha : Sized a) (hri : i.rotate90 = .ok ri) (hra : a.rotate90 = .ok ra)
    {x y u v : List Nat} (e1 : feature (.zone, .img) i ri = .ok (.arr x)) (e2 : feature (.zone, .img) a ra = .ok (.arr y))
    (e3 : propZoneLoad i = .ok u) (e4 : propZoneLoad a = .ok v) :
    SameZones i a ↔ 4 ≤ agree x y ∧ u.length = v.length := by
  constructor
  · rintro ⟨ri', ra', x', y', F, G, h1, h2, h3, h4, h5, h6, h7, h8⟩
    rw [hri] at h1; cases h1
    rw [hra] at h2; cases h2
    rw [e1] at h3; cases h3
    rw [e2] at h4; cases h4
    rw [propZone_length hi e3 h6, propZone_length ha e4 h7]
    exact ⟨h5, h8⟩
  · rintro ⟨h5, h8⟩
    obtain ⟨F, _, hF, _⟩ := propZone_thin i hi.wf hi.w hi.h hi.area
    obtain ⟨G, _, hG, _⟩ := propZone_thin a ha.wf ha.w ha.h ha.area
    refine ⟨ri, ra, x, y, F, G, hri, hra, e1, e2, h5, hF, hG, ?_⟩
    rw [← propZone_length hi e3 hF, ← propZone_length ha e4 hG]
    exact h8

theorem clash_length {i a : Image} (hi : Sized i) (ha : Sized a) {u v : List Nat} (e3 : propZoneLoad i = .ok u)
    (e4 : propZoneLoad a = .ok v) (h : Clash i a) : u.length = v.length := by
  obtain ⟨F, G, hF, hG, h, _⟩ := h
  rw [propZone_length hi e3 hF, propZone_length ha e4 hG]
  exact h

/-- The tests of one picture: refused without the zones of the letter, undefined when it clashes. -/
theorem exclusive_run (h : Learnt imgs d) {a r : Image} (ha : Sized a) (hr : a.rotate90 = .ok r) {j : Nat} {i : Image}
    (hj : imgs[j]? = some i) (hi : Sized i) :
    (Refused (exclusiveStrats.map d.strat) a r j ↔ ¬ SameZones i a) ∧
    (Broken (exclusiveStrats.map d.strat) a r j ↔ SameZones i a ∧ Clash i a) ∧
    ∀ t ∈ exclusiveStrats.map d.strat, testRun t a r j = .ub ∨ ∃ b, testRun t a r j = .ok b := by
  obtain ⟨q, hq, _⟩ := hi.rotate
  obtain ⟨x, y, ex, ey, ez⟩ := zone_test h r ha hj hi hq
  obtain ⟨u, v, eu, ev, p1, p2⟩ := propZone_test (r := r) h ha hj hi hq
  rw [sameZones_iff hi ha hq hr ex ey eu ev]
  have hcl := clash_length hi ha eu ev
  have el : exclusiveStrats.map d.strat = [d.strat (.zone, .img), d.strat (.propZone, .img)] := rfl
  rw [el, refused_cons, refused_cons, broken_cons, broken_cons, ez]
  refine ⟨?_, ?_, ?_⟩
  · by_cases hc : Clash i a
    · rw [p1 hc]
      have := hcl hc
      by_cases h4 : 4 ≤ agree x y <;> simp [h4, this, refused_nil]
    · rw [p2 hc]
      by_cases h4 : 4 ≤ agree x y <;> by_cases hl : u.length = v.length <;> simp [h4, hl, refused_nil]
  · by_cases hc : Clash i a
    · rw [p1 hc]
      have := hcl hc
      by_cases h4 : 4 ≤ agree x y <;> simp [h4, this, hc]
    · rw [p2 hc]
      by_cases h4 : 4 ≤ agree x y <;> simp [h4, broken_nil, hc]
  · intro t ht
    simp only [List.mem_cons, List.not_mem_nil, or_false] at ht
    rcases ht with rfl | rfl
    · exact .inr ⟨_, ez⟩
    · by_cases hc : Clash i a
      · exact .inl (p1 hc)
      · exact .inr ⟨_, p2 hc⟩

theorem learnt_size (h : Learnt imgs d) : d.size = imgs.length := by
  unfold Datas.size
  cases hd : d.tables with
  | nil => have := h.strats; rw [hd] at this; simp [registered] at this
  | cons t ts => exact (h.rows t (by rw [hd]; simp)).1

/-- What the simple strategies load for a picture. -/
def valOf (a r : Image) (t : Simple) : Nat := valueOr 0 (t.load a r)

variable {P : Type} [Dbl P]

/-- The simple strategies of the program. -/
theorem setup_simple (S : StdSort) (glyphs : List (List View)) (bw : List (List Nat)) (h : Learnt imgs d) {a r : Image}
    (ha : Sized a) (hr : Sized r) {t : Simple}
    (ht : t ∈ (setupOf S glyphs d bw : Setup P).first :: (setupOf S glyphs d bw : Setup P).simple) :
    t.load a r = .ok (valOf a r t) ∧ SimpleOk (valOf a r) imgs.length t := by
  have : t ∈ simpleStrats.map d.simple := ht
  obtain ⟨s, hs, rfl⟩ := List.mem_map.1 this
  obtain ⟨n, _, e, hk⟩ := simple_load d hs ha hr
  have hv : valOf a r (d.simple s) = n := by
    unfold valOf
    rw [e]
    rfl
  exact ⟨by rw [hv]; exact e, simple_ok h hs _ (by rw [hv]; exact hk)⟩

theorem setup_base (S : StdSort) (glyphs : List (List View)) (bw : List (List Nat)) (h : Learnt imgs d)
    (hi : ∀ i ∈ imgs, Sized i) (hn : glyphs.length = imgs.length) (hb : dataIndexesByWords glyphs = .ok bw)
    (he : [] ∉ glyphs) {a r : Image} (ha : Sized a) (hr : a.rotate90 = .ok r) :
    SetupBase (setupOf S glyphs d bw : Setup P) (valOf a r) imgs.length a r := by
  have hl := ha.rotated hr
  obtain ⟨t, e1, e2, e3, _⟩ := C33_by_words glyphs he
  rw [hb] at e1
  cases e1
  refine ⟨fun t ht => (setup_simple S glyphs bw h ha hl ht).1, fun t ht => (setup_simple S glyphs bw h ha hl ht).2, ?_, ?_, ?_, ?_,
    rfl, ?_, ?_, hn, ?_⟩
  · intro t ht
    obtain ⟨s, hs, rfl⟩ := List.mem_map.1 (ht : t ∈ complexStrats.map d.strat)
    simp only [complexStrats, List.mem_cons, List.not_mem_nil, or_false] at hs
    rcases hs with rfl | rfl | rfl
    · exact hbar_safe h (by decide) ha hl
    · exact hbar_safe h (by decide) ha hl
    · exact alternations_safe h hi ha hl
  · intro t ht
    obtain ⟨s, hs, rfl⟩ := List.mem_map.1 (ht : t ∈ exclusiveStrats.map d.strat)
    simp only [exclusiveStrats, List.mem_cons, List.not_mem_nil, or_false] at hs
    rcases hs with rfl | rfl
    · obtain ⟨y, ey, _⟩ := feature_zone ha r
      refine ⟨y, ?_⟩
      show (do return (← loadStrat (.zone, .img) a r).toArr : Res (List Nat)) = _
      rw [loadStrat_eq, ey]; rfl
    · obtain ⟨_, l, _, e, _⟩ := propZone_thin a ha.wf ha.w ha.h ha.area
      refine ⟨l, ?_⟩
      show (do return (← loadStrat (.propZone, .img) a r).toArr : Res (List Nat)) = _
      rw [loadStrat_eq, feature_propZone e]; rfl
  · exact Nat.le_of_eq hn.symm
  · exact Nat.le_of_eq hn.symm
  · exact e2.trans hn
  · show ∀ l ∈ bw, ∀ j ∈ l, j < imgs.length
    intro l hlm j hj
    obtain ⟨g, hg, rfl⟩ := List.mem_iff_getElem.1 hlm
    obtain ⟨r, h1, _, h3⟩ := e3 g (by omega)
    rw [List.getElem?_eq_getElem hg, Option.some.injEq] at h1
    rw [h1] at hj
    have := ((h3 j).1 hj).1
    omega
  · obtain ⟨_, _, _, h3, _⟩ := viewsIndexes_sorted S glyphs
    exact h3.trans hn

end

end Ppocr

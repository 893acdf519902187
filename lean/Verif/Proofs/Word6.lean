import Verif.Proofs.Sort6
import Verif.Proofs.Recognise
import Verif.Props.Text8
import Verif.Spec.Text6

/-! # Helper lemmas: the words of a letter in `extract_text6` -/

namespace Ppocr
open Spec Props

/-! ## Complex strategies -/

theorem complexLoop_ok {V : Type} {rel : Rel V} {tab : List V} {value : V} {k : Nat → Bool} (hc : 0 < usub rel.count 1) :
    ∀ ps : Probs6, (∀ p ∈ ps, ∃ v x, rd tab p.1 = .ok v ∧ rel.compute v value = .ok x ∧
      decide (uadd (usub rel.count 1) 1 / 2 ≤ x) = k p.1) → (∀ p ∈ ps, p.2.Crisp false) →
    ∃ r, complexLoop Prob6.mulDiv rel tab value ps = .ok r ∧ r.map Prod.fst = (ps.map Prod.fst).filter k ∧ ∀ q ∈ r, q.2.Crisp false := by
  intro ps
  induction ps with
  | nil => intro _ _; exact ⟨[], rfl, rfl, by simp⟩
  | cons p ps ih =>
    intro h hcr
    obtain ⟨v, x, e1, e2, e3⟩ := h p (by simp)
    obtain ⟨r, e, h1, h2⟩ := ih (fun q hq => h q (by simp [hq])) (fun q hq => hcr q (by simp [hq]))
    rw [complexLoop]
    rw [e1, Res.ok_bind, e2, Res.ok_bind, e, Res.ok_bind]
    refine ⟨_, rfl, ?_, ?_⟩
    · rw [List.map_cons, List.filter_cons, ← e3, ← h1]
      by_cases hx : uadd (usub rel.count 1) 1 / 2 ≤ x
      · rw [if_pos hx, if_pos (by simpa using hx)]; rfl
      · rw [if_neg hx, if_neg (by simpa using hx)]
    · intro q hq
      split at hq
      · rcases List.mem_cons.1 hq with rfl | hq
        · exact crisp_mulDiv (hcr p (by simp)) hc
        · exact h2 q hq
      · exact h2 q hq

section
variable {imgs : List Image} {d : Datas}

theorem hbar_loop (h : Learnt imgs d) (hi : ∀ i ∈ imgs, Sized i) {a r : Image} (ha : Sized a) (hr : a.rotate90 = .ok r) {p : Policy}
    (hp : (Feat.hbar, p) ∈ registered) : ∃ v, (d.strat6 (.hbar, p)).load a r = .ok v ∧ ∀ ps : Probs6,
      (∀ q ∈ ps, q.1 < imgs.length) → (∀ q ∈ ps, q.2.Crisp false) →
      ∃ ps' k, complexLoop Prob6.mulDiv (d.strat6 (.hbar, p)).rel (d.strat6 (.hbar, p)).tab v ps = .ok ps' ∧
        ps'.map Prod.fst = (ps.map Prod.fst).filter k ∧ (∀ q ∈ ps', q.2.Crisp false) ∧
        ∀ (j : Nat) (i ri : Image), imgs[j]? = some i → i.rotate90 = .ok ri →
          (k j = true ↔ feature (.hbar, p) i ri = feature (.hbar, .img) a r) := by
  obtain ⟨n, e⟩ := feature_hbar ha (ha.rotated hr) .img
  refine ⟨n, ?_, ?_⟩
  · show (do return (← toolLoad (.hbar, p) a r).toNum : Res Nat) = _
    rw [toolLoad_eq, e]; rfl
  · intro ps hl hcr
    have hent : ∀ (j : Nat) (i ri : Image), imgs[j]? = some i → i.rotate90 = .ok ri →
        ∃ x, feature (.hbar, p) i ri = .ok (.num x) ∧ rd ((d.get (.hbar, p)).map Value.toNum) j = .ok x := by
      intro j i ri hj hri
      have hs := hi i (List.mem_of_getElem? hj)
      obtain ⟨x, ex⟩ := feature_hbar hs (hs.rotated hri) p
      exact ⟨x, ex, get_entry h hp hj hri ex Value.toNum⟩
    let k : Nat → Bool := fun j => decide (((d.get (.hbar, p)).map Value.toNum)[j]? = some n)
    obtain ⟨ps', e', h1, h2⟩ := complexLoop_ok (rel := (d.strat6 (.hbar, p)).rel) (tab := (d.strat6 (.hbar, p)).tab) (value := n)
      (k := k) (show 0 < usub 2 1 by decide) ps (by
        intro q hq
        have hql := hl q hq
        obtain ⟨ri, hri, _⟩ := (hi _ (List.getElem_mem hql)).rotate
        obtain ⟨x, ex, et⟩ := hent q.1 _ ri (List.getElem?_eq_getElem hql) hri
        refine ⟨x, if x = n then 1 else 0, et, rfl, ?_⟩
        have hg := rd_eq_ok.1 et
        show decide (uadd (usub 2 1) 1 / 2 ≤ if x = n then 1 else 0) = decide (((d.get (.hbar, p)).map Value.toNum)[q.1]? = some n)
        rw [hg]
        have h12 : uadd (usub 2 1) 1 / 2 = 1 := by decide
        rw [h12]
        by_cases hx : x = n
        · simp [hx]
        · simp [hx]) hcr
    refine ⟨ps', k, e', h1, h2, ?_⟩
    intro j i ri hj hri
    obtain ⟨x, ex, et⟩ := hent j i ri hj hri
    rw [ex, e]
    show decide (((d.get (.hbar, p)).map Value.toNum)[j]? = some n) = true ↔ _
    rw [rd_eq_ok.1 et]
    simp

theorem alternations_loop (h : Learnt imgs d) (hi : ∀ i ∈ imgs, Sized i) {a r : Image} (ha : Sized a) (hr : a.rotate90 = .ok r) :
    ∃ v, (d.strat6 (.alternations, .img)).load a r = .ok v ∧ ∀ ps : Probs6,
      (∀ q ∈ ps, q.1 < imgs.length) → (∀ q ∈ ps, q.2.Crisp false) →
      ∃ ps' k, complexLoop Prob6.mulDiv (d.strat6 (.alternations, .img)).rel (d.strat6 (.alternations, .img)).tab v ps = .ok ps' ∧
        ps'.map Prod.fst = (ps.map Prod.fst).filter k ∧ (∀ q ∈ ps', q.2.Crisp false) ∧
        ∀ (j : Nat) (i ri : Image), imgs[j]? = some i → i.rotate90 = .ok ri →
          (k j = true ↔ ∃ x y, feature (.alternations, .img) i ri = .ok (.alt x) ∧
            feature (.alternations, .img) a r = .ok (.alt y) ∧ 4 ≤ agree x y) := by
  obtain ⟨y, e, hy⟩ := feature_alternations ha (ha.rotated hr)
  have hreg : (Feat.alternations, Policy.img) ∈ registered := by decide
  refine ⟨y, ?_, ?_⟩
  · show (do return (← toolLoad (.alternations, .img) a r).toAlt : Res _) = _
    rw [toolLoad_eq, e]; rfl
  · intro ps hl hcr
    have hent : ∀ (j : Nat) (i ri : Image), imgs[j]? = some i → i.rotate90 = .ok ri →
        ∃ x, feature (.alternations, .img) i ri = .ok (.alt x) ∧ x.length = 7 ∧
          rd ((d.get (.alternations, .img)).map Value.toAlt) j = .ok x := by
      intro j i ri hj hri
      have hs := hi i (List.mem_of_getElem? hj)
      obtain ⟨x, ex, hx⟩ := feature_alternations hs (hs.rotated hri)
      exact ⟨x, ex, hx, get_entry h hreg hj hri ex Value.toAlt⟩
    let k : Nat → Bool := fun j => decide (4 ≤ agree (((d.get (.alternations, .img)).map Value.toAlt).getD j []) y)
    have hk : ∀ (j : Nat) x, rd ((d.get (.alternations, .img)).map Value.toAlt) j = .ok x → k j = decide (4 ≤ agree x y) := by
      intro j x ex
      show decide (4 ≤ agree (((d.get (.alternations, .img)).map Value.toAlt).getD j []) y) = _
      rw [List.getD_eq_getElem?_getD, rd_eq_ok.1 ex]
      rfl
    obtain ⟨ps', e', h1, h2⟩ := complexLoop_ok (rel := (d.strat6 (.alternations, .img)).rel)
      (tab := (d.strat6 (.alternations, .img)).tab) (value := y) (k := k) (show 0 < usub 101 1 by decide) ps (by
        intro q hq
        have hql := hl q hq
        obtain ⟨ri, hri, _⟩ := (hi _ (List.getElem_mem hql)).rotate
        obtain ⟨x, ex, hx, et⟩ := hent q.1 _ ri (List.getElem?_eq_getElem hql) hri
        obtain ⟨e3, h7⟩ := arrayRel_agree hx hy
        refine ⟨x, _, et, e3, ?_⟩
        rw [hk _ _ et]
        show decide (uadd (usub 101 1) 1 / 2 ≤ _) = _
        have h50 : uadd (usub 101 1) 1 / 2 = 50 := by decide
        rw [h50]
        generalize agree x y = n at *
        exact decide_eq_decide.2 (by omega)) hcr
    refine ⟨ps', k, e', h1, h2, ?_⟩
    intro j i ri hj hri
    obtain ⟨x, ex, _, et⟩ := hent j i ri hj hri
    rw [hk _ _ et, decide_eq_true_iff]
    constructor
    · intro h; exact ⟨x, y, ex, e, h⟩
    · rintro ⟨x', y', ex', ey', h'⟩
      rw [ex] at ex'; cases ex'
      rw [e] at ey'; cases ey'
      exact h'

theorem mem_fst {ps : Probs6} {n : Nat} (h : ∀ q ∈ ps, q.1 < n) {ps' : Probs6} {k : Nat → Bool}
    (e : ps'.map Prod.fst = (ps.map Prod.fst).filter k) : ∀ q ∈ ps', q.1 < n := by
  intro q hq
  have : q.1 ∈ ps'.map Prod.fst := List.mem_map.2 ⟨q, hq, rfl⟩
  rw [e] at this
  obtain ⟨x, hx, ex⟩ := List.mem_map.1 (List.mem_filter.1 this).1
  rw [← ex]; exact h x hx

theorem reduceComplex6_ok (h : Learnt imgs d) (hi : ∀ i ∈ imgs, Sized i) {a r : Image} (ha : Sized a) (hr : a.rotate90 = .ok r)
    {ps : Probs6} (hl : ∀ q ∈ ps, q.1 < imgs.length) (hcr : ∀ q ∈ ps, q.2.Crisp false) :
    ∃ ps', reduceComplex6 Prob6.mulDiv a r (complexStrats.map d.strat6) ps = .ok ps' ∧ (∀ q ∈ ps', q.2.Crisp false) ∧
      ∀ j, j ∈ ps'.map Prod.fst ↔ j ∈ ps.map Prod.fst ∧ ∃ i, imgs[j]? = some i ∧ Bars6 i a := by
  obtain ⟨v1, l1, f1⟩ := hbar_loop h hi ha hr (p := .img) (by decide)
  obtain ⟨v2, l2, f2⟩ := hbar_loop h hi ha hr (p := .img90) (by decide)
  obtain ⟨v3, l3, f3⟩ := alternations_loop h hi ha hr
  obtain ⟨p1, k1, e1, m1, c1, b1⟩ := f1 ps hl hcr
  have hl1 := mem_fst hl m1
  obtain ⟨p2, k2, e2, m2, c2, b2⟩ := f2 p1 hl1 c1
  have hl2 := mem_fst hl1 m2
  obtain ⟨p3, k3, e3, m3, c3, b3⟩ := f3 p2 hl2 c2
  have el : complexStrats.map d.strat6 = [d.strat6 (.hbar, .img), d.strat6 (.hbar, .img90), d.strat6 (.alternations, .img)] := rfl
  refine ⟨p3, ?_, c3, ?_⟩
  · rw [el, reduceComplex6, l1, Res.ok_bind, e1, Res.ok_bind, reduceComplex6, l2, Res.ok_bind, e2, Res.ok_bind, reduceComplex6, l3,
      Res.ok_bind, e3, Res.ok_bind]
    rfl
  · intro j
    rw [m3, List.mem_filter, m2, List.mem_filter, m1, List.mem_filter]
    constructor
    · rintro ⟨⟨⟨hj, t1⟩, t2⟩, t3⟩
      refine ⟨hj, ?_⟩
      obtain ⟨q, hq, rfl⟩ := List.mem_map.1 hj
      have hql := hl q hq
      obtain ⟨ri, hri, _⟩ := (hi _ (List.getElem_mem hql)).rotate
      have hg := List.getElem?_eq_getElem hql
      refine ⟨_, hg, ri, r, hri, hr, ?_, (b3 _ _ _ hg hri).1 t3⟩
      intro p
      cases p with
      | img => exact (b1 _ _ _ hg hri).1 t1
      | img90 => exact (b2 _ _ _ hg hri).1 t2
    · rintro ⟨hj, i, hg, ri, ra, hri, hra, t1, t3⟩
      rw [hr] at hra; cases hra
      exact ⟨⟨⟨hj, (b1 _ _ _ hg hri).2 (t1 _)⟩, (b2 _ _ _ hg hri).2 (t1 _)⟩, (b3 _ _ _ hg hri).2 t3⟩

/-! ## Exclusive strategies -/

theorem loadTests6_eq (d : Datas) (a r : Image) : loadTests6 a r (exclusiveStrats.map d.strat6) =
    loadExclusive a r (exclusiveStrats.map d.strat) := by
  have el : exclusiveStrats.map d.strat = [d.strat (.zone, .img), d.strat (.propZone, .img)] := rfl
  have el6 : exclusiveStrats.map d.strat6 = [d.strat6 (.zone, .img), d.strat6 (.propZone, .img)] := rfl
  have e1 : (d.strat6 (.zone, .img)).load = (d.strat (.zone, .img)).load := by
    funext a r
    show (do return (← toolLoad (.zone, .img) a r).toArr : Res (List Nat)) = (do return (← loadStrat (.zone, .img) a r).toArr)
    rw [toolLoad_eq, loadStrat_eq]
  have e2 : (d.strat6 (.propZone, .img)).load = (d.strat (.propZone, .img)).load := by
    funext a r
    show (do return (← toolLoad (.propZone, .img) a r).toArr : Res (List Nat)) = (do return (← loadStrat (.propZone, .img) a r).toArr)
    rw [toolLoad_eq, loadStrat_eq]
  rw [el, el6]
  simp only [loadTests6, loadExclusive]
  rw [e1, e2]
  rfl

theorem reduceExclusive6_eq {P : Type} (bw : List (List Nat)) (d : Datas) (a r : Image) (ps : List (Nat × P)) :
    reduceExclusive6 bw a r (exclusiveStrats.map d.strat6) ps = reduceExclusive bw a r (exclusiveStrats.map d.strat) ps := by
  unfold reduceExclusive6 reduceExclusive
  rw [loadTests6_eq]

theorem exclusive_loads {a r : Image} (ha : Sized a) : ∀ s ∈ exclusiveStrats.map d.strat, ∃ v, s.load a r = .ok v := by
  have el : exclusiveStrats.map d.strat = [d.strat (.zone, .img), d.strat (.propZone, .img)] := rfl
  intro s hs
  rw [el] at hs
  rcases List.mem_cons.1 hs with rfl | hs
  · obtain ⟨y, ey, _⟩ := feature_zone ha r
    refine ⟨y, ?_⟩
    show (do return (← loadStrat (.zone, .img) a r).toArr : Res (List Nat)) = _
    rw [loadStrat_eq, ey]; rfl
  · have := List.mem_singleton.1 hs
    subst this
    obtain ⟨_, y, _, ey, _⟩ := propZone_thin a ha.wf ha.w ha.h ha.area
    refine ⟨y, ?_⟩
    show (do return (← loadStrat (.propZone, .img) a r).toArr : Res (List Nat)) = _
    rw [loadStrat_eq, feature_propZone ey]; rfl

end

end Ppocr

import Verif.Proofs.Relationship
import Verif.Props.Zone

/-! # C24: similarities -/

namespace Ppocr.Props
open Ppocr Spec

/-- `c` is a similarity: a percentage, 100 on equal values, independent of the order, on the domain `D`. -/
structure Similarity {V : Type} (c : V → V → Res Nat) (D : V → V → Prop) : Prop where
  percent : ∀ a b, D a b → ∃ n, c a b = .ok n ∧ n ≤ 100
  same : ∀ a, D a a → c a a = .ok 100
  sym : ∀ a b, D a b → c a b = c b a

/-- **C24** for the interval relationships: values in range. -/
theorem C24_interval (k : Nat) (hk : 0 < k) (hk2 : k * 100 < W32) :
    Similarity (intervalRel k).compute (fun a b => a ≤ k ∧ b ≤ k) ∧
    ∀ a b, a ≤ k → b ≤ k →
      (intervalRel k).compute a b = .ok (100 - (a - b + (b - a)) * 100 / k) := by
  refine ⟨⟨?_, ?_, ?_⟩, ?_⟩
  · intro a b h
    exact ⟨_, computeRel_ok h.1 h.2 hk hk2, Nat.sub_le _ _⟩
  · intro a h
    show computeRel a a k = _
    rw [computeRel_ok h.1 h.1 hk hk2]
    simp
  · intro a b h
    show computeRel a b k = computeRel b a k
    rw [computeRel_ok h.1 h.2 hk hk2, computeRel_ok h.2 h.1 hk hk2, Nat.add_comm]
  · intro a b ha hb
    exact computeRel_ok ha hb hk hk2

example : (intervalRel 200).compute 150 100 = .ok 75 := by decide
/-- Out of range the assertion fails. -/
example : (intervalRel 100).compute 250 100 = .abort := by decide

/-- **C24** for `hbar`. -/
theorem C24_equal : Similarity equalRel.compute (fun _ _ => True) ∧
    ∀ a b, equalRel.compute a b = .ok 100 ↔ a = b := by
  refine ⟨⟨?_, ?_, ?_⟩, ?_⟩
  · intro a b _
    refine ⟨_, rfl, ?_⟩
    split <;> omega
  · intro a _
    show Res.ok _ = _
    rw [if_pos rfl]
  · intro a b _
    show Res.ok _ = Res.ok _
    by_cases h : a = b
    · rw [if_pos h, if_pos h.symm]
    · rw [if_neg h, if_neg (fun e => h e.symm)]
  · intro a b
    show Res.ok _ = _ ↔ _
    by_cases h : a = b <;> simp [h]

example : equalRel.compute 3 4 = .ok 0 := by decide

/-- **C24** for the arrays of `N` entries (`alternations`, `zone`): the percentage of equal entries. -/
theorem C24_array (V : Type) [DecidableEq V] (N : Nat) (h0 : 0 < N) (hN : N * 100 < W32) :
    Similarity (arrayRel V).compute (fun a b => a.length = N ∧ b.length = N) ∧
    ∀ a b : List V, a.length = N → b.length = N → (arrayRel V).compute a b =
      .ok ((List.zip a b).countP (fun p => decide (p.1 = p.2)) * 100 / N) := by
  have key : ∀ a b : List V, a.length = N → b.length = N → arrayCompute a b =
      .ok ((List.zip a b).countP (fun p => decide (p.1 = p.2)) * 100 / N) := by
    intro a b ha hb
    rw [arrayCompute_ok (by omega) (by omega) (by omega), ha]
  have swap : ∀ a b : List V, (List.zip a b).countP (fun p => decide (p.1 = p.2)) =
      (List.zip b a).countP (fun p => decide (p.1 = p.2)) := by
    intro a
    induction a with
    | nil => intro b; simp
    | cons x a ih =>
      intro b
      cases b with
      | nil => simp
      | cons y b =>
        simp only [List.zip_cons_cons, List.countP_cons, ih b]
        by_cases h : x = y
        · simp [h]
        · simp [h, Ne.symm h]
  have self : ∀ a : List V, (List.zip a a).countP (fun p => decide (p.1 = p.2)) = a.length := by
    intro a
    induction a with
    | nil => rfl
    | cons x a ih => simp [ih]
  refine ⟨⟨?_, ?_, ?_⟩, key⟩
  · intro a b h
    refine ⟨_, key a b h.1 h.2, ?_⟩
    have h1 := List.countP_le_length (p := fun p : V × V => decide (p.1 = p.2)) (l := List.zip a b)
    rw [List.length_zip] at h1
    apply Nat.div_le_of_le_mul
    exact Nat.mul_le_mul_right _ (by omega)
  · intro a h
    show arrayCompute a a = _
    rw [key a a h.1 h.1, self, h.1, Nat.mul_comm, Nat.mul_div_cancel _ h0]
  · intro a b h
    show arrayCompute a b = arrayCompute b a
    rw [key a b h.1 h.2, key b a h.2 h.1, swap]

example : (arrayRel Nat).compute [1, 0, 1, 1, 2, 1, 0] [1, 0, 1, 2, 2, 1, 1] = .ok 71 := by decide

/-! ### proportionality_zone -/

/-- **C24** for `proportionality_zone`, what does hold: vectors of positive percentages give 0 or a value
in [50,100], and 100 for equal vectors.  Missing: vectors with an entry 0 (see `C24_pz_division_by_zero`)
and independence from the order (see `C24_pz_asymmetric`). -/
theorem C24_pz_partial (a b : List Nat) (hl : a.length * 100 < W32)
    (ha : ∀ x ∈ a, 0 < x ∧ x ≤ 100) (hb : ∀ x ∈ b, 0 < x ∧ x ≤ 100) :
    (∃ n, pzRel.compute a b = .ok n ∧ n ≤ 100 ∧
      (a.length ≠ b.length → n = 0) ∧ (a.length = b.length → 50 ≤ n)) ∧
    pzRel.compute a a = .ok 100 := by
  constructor
  · show ∃ n, pzCompute a b = .ok n ∧ _
    unfold pzCompute
    by_cases h : a.length = b.length
    · rw [if_neg (by simpa using h)]
      by_cases he : a.isEmpty
      · rw [if_pos he]
        exact ⟨100, rfl, by omega, fun h' => absurd h h', fun _ => by omega⟩
      · rw [if_neg he]
        have hpos : 0 < a.length := by
          cases a with
          | nil => exact absurd rfl he
          | cons _ _ => simp
        obtain ⟨t, e, ht⟩ := pzSum_ok a b 0 h ha (fun x hx => (hb x hx).2) (by omega)
        rw [e, Res.ok_bind]
        unfold udiv
        rw [if_neg (by omega), Res.ok_bind]
        have hq : t / a.length ≤ 100 := by
          apply Nat.div_le_of_le_mul
          rw [Nat.mul_comm]
          omega
        generalize t / a.length = q at *
        rw [computeRel_ok hq (by omega) (by omega) (by decide)]
        refine ⟨_, rfl, by omega, fun h' => absurd h h', fun _ => ?_⟩
        have : (q - 50 + (50 - q)) * 100 / 100 = q - 50 + (50 - q) := Nat.mul_div_cancel _ (by omega)
        rw [this]
        omega
    · rw [if_pos h]
      exact ⟨0, rfl, by omega, fun _ => rfl, fun h' => absurd h' h⟩
  · show pzCompute a a = _
    unfold pzCompute
    rw [if_neg (by simp)]
    by_cases he : a.isEmpty
    · rw [if_pos he]
    · rw [if_neg he, pzSum_same a 0 ha (by omega), Res.ok_bind]
      have hpos : 0 < a.length := by
        cases a with
        | nil => exact absurd rfl he
        | cons _ _ => simp
      unfold udiv
      rw [if_neg (by omega), Res.ok_bind, Nat.zero_add, Nat.mul_div_cancel _ hpos]
      decide

example : pzRel.compute [30, 70] [50, 50] = .ok 97 := by decide

/-- Images whose half perimeter is at most 50 only produce positive percentages: comparing them is safe. -/
theorem C24_pz_small_images (i : Image) (wf : i.WF) (hw : 0 < i.bounds.w) (hh : 0 < i.bounds.h)
    (hsz : i.bounds.w + i.bounds.h ≤ 50) :
    ∃ r, propZoneLoad i = .ok r ∧ ∀ x ∈ r, 0 < x ∧ x ≤ 100 := by
  classical
  have harea : i.bounds.w * i.bounds.h ≤ 50 * 50 := Nat.mul_le_mul (by omega) (by omega)
  obtain ⟨F, r, hF, e, _, _, hsum, hp⟩ := C23_proportionality_zone i wf hw hh
    (by simp only [W32]; omega)
  obtain ⟨m, G, _, inv⟩ := labelZones_ok wf (by simp only [W32]; omega)
  have hFG := zoneList_unique hF (zoneList_of inv)
  subst hFG
  refine ⟨r, e, ?_⟩
  intro x hx
  refine ⟨?_, Nat.le_trans (le_sum_of_mem hx) hsum⟩
  obtain ⟨f, hf, rfl⟩ := List.mem_map.1 (hp.mem_iff.1 hx)
  rw [List.mem_filter] at hf
  have h1 := extent_ne.2 (of_decide_eq_true hf.2)
  have h2 := sum_extent_le inv
  have h3 : extent i f ≤ (F.map (extent i)).sum := le_sum_of_mem (List.mem_map_of_mem hf.1)
  apply Nat.div_pos <;> omega

/-- Two vectors of percentages of which no two side by side are both zero. -/
theorem C24_pz_pairs (a b : List Nat) (hl : a.length * 100 < W32) (ha : ∀ x ∈ a, x ≤ 100) (hb : ∀ x ∈ b, x ≤ 100)
    (hp : ∀ p ∈ a.zip b, 0 < p.1 + p.2) :
    ∃ n, pzRel.compute a b = .ok n ∧ n ≤ 100 ∧ (a.length ≠ b.length → n = 0) ∧ (a.length = b.length → 50 ≤ n) := by
  show ∃ n, pzCompute a b = .ok n ∧ _
  unfold pzCompute
  by_cases h : a.length = b.length
  · rw [if_neg (by simpa using h)]
    by_cases he : a.isEmpty
    · rw [if_pos he]
      exact ⟨100, rfl, by omega, fun h' => absurd h h', fun _ => by omega⟩
    · rw [if_neg he]
      have hpos : 0 < a.length := by
        cases a with
        | nil => exact absurd rfl he
        | cons _ _ => simp
      obtain ⟨t, e, ht⟩ := pzSum_pairs a b 0 h hp ha hb (by omega)
      rw [e, Res.ok_bind]
      unfold udiv
      rw [if_neg (by omega), Res.ok_bind]
      have hq : t / a.length ≤ 100 := by
        apply Nat.div_le_of_le_mul
        rw [Nat.mul_comm]
        omega
      generalize t / a.length = q at *
      rw [computeRel_ok hq (by omega) (by omega) (by decide)]
      refine ⟨_, rfl, by omega, fun h' => absurd h h', fun _ => ?_⟩
      have : (q - 50 + (50 - q)) * 100 / 100 = q - 50 + (50 - q) := Nat.mul_div_cancel _ (by omega)
      rw [this]
      omega
  · rw [if_pos h]
    exact ⟨0, rfl, by omega, fun _ => rfl, fun h' => absurd h' h⟩

open Classical in
/-- The percentages of an image: sorted, few, and zero exactly when a zone is thin. -/
theorem propZone_thin (i : Image) (wf : i.WF) (hw : 0 < i.bounds.w) (hh : 0 < i.bounds.h)
    (hsz : 100 * (i.bounds.w * i.bounds.h) + 100 < 2147483648) :
    ∃ F r, ZoneList i F ∧ propZoneLoad i = .ok r ∧ r.Pairwise (· ≤ ·) ∧ (∀ x ∈ r, x ≤ 100) ∧ r.length * 100 < W32 ∧
      r.length = F.countP (fun f => decide (OnBorder i f)) ∧ (0 ∈ r ↔ ∃ f ∈ F, Thin i F f) := by
  obtain ⟨F, r, hF, e, hs, hlen, hsum, hp⟩ := C23_proportionality_zone i wf hw hh (by simp only [W32]; omega)
  obtain ⟨m, G, _, inv⟩ := labelZones_ok wf (by simp only [W32]; omega)
  have hFG := zoneList_unique hF (zoneList_of inv)
  subst hFG
  refine ⟨F, r, hF, e, hs, fun x hx => Nat.le_trans (le_sum_of_mem hx) hsum, ?_, hlen, ?_⟩
  · have h1 : F.length ≤ i.bounds.w * i.bounds.h := by
      have hnd : F.Nodup := hF.sorted.imp fun h => Nat.ne_of_lt h
      have := hnd.length_le_of_subset (l₂ := List.range (i.bounds.w * i.bounds.h)) (by
        intro p hp
        rw [List.mem_range]
        exact ((hF.mem p).1 hp).1.1)
      simpa using this
    have h2 : r.length ≤ F.length := by rw [hlen]; exact List.countP_le_length
    simp only [W32]
    omega
  · have hz : ∀ f ∈ F, OnBorder i f → (100 * extent i f / (F.map (extent i)).sum = 0 ↔ Thin i F f) := by
      intro f hf hb
      have h1 := extent_ne.2 hb
      have h3 : extent i f ≤ (F.map (extent i)).sum := le_sum_of_mem (List.mem_map_of_mem hf)
      unfold Thin
      rw [Nat.div_eq_zero_iff]
      constructor
      · rintro (h | h)
        · omega
        · exact ⟨hb, h⟩
      · exact fun h => .inr h.2
    constructor
    · intro h0
      obtain ⟨f, hf, hx⟩ := List.mem_map.1 (hp.mem_iff.1 h0)
      rw [List.mem_filter] at hf
      exact ⟨f, hf.1, (hz f hf.1 (of_decide_eq_true hf.2)).1 hx⟩
    · rintro ⟨f, hf, ht⟩
      exact hp.mem_iff.2 (List.mem_map.2 ⟨f, List.mem_filter.2 ⟨hf, decide_eq_true ht.1⟩, (hz f hf ht.1).2 ht⟩)

/-- **C24** for `proportionality_zone`: comparing two pictures divides by zero exactly when they have equally many zones on
the border and each has one with less than a hundredth of it; otherwise the similarity is a percentage. -/
theorem C24_pz_exact (i j : Image) (wi : i.WF) (wj : j.WF) (hwi : 0 < i.bounds.w) (hhi : 0 < i.bounds.h)
    (hwj : 0 < j.bounds.w) (hhj : 0 < j.bounds.h) (si : 100 * (i.bounds.w * i.bounds.h) + 100 < 2147483648)
    (sj : 100 * (j.bounds.w * j.bounds.h) + 100 < 2147483648) :
    ∃ a b, propZoneLoad i = .ok a ∧ propZoneLoad j = .ok b ∧ (Clash i j → pzRel.compute a b = .ub) ∧
      (¬ Clash i j → ∃ n, pzRel.compute a b = .ok n ∧ n ≤ 100 ∧ (a.length ≠ b.length → n = 0) ∧
        (a.length = b.length → 50 ≤ n)) := by
  classical
  obtain ⟨F, a, hF, ea, sa, la, na, ca, za⟩ := propZone_thin i wi hwi hhi si
  obtain ⟨G, b, hG, eb, sb, lb, nb, cb, zb⟩ := propZone_thin j wj hwj hhj sj
  refine ⟨a, b, ea, eb, ?_, ?_⟩
  · rintro ⟨F', G', hF', hG', hlen, hf, hg⟩
    have h1 := zoneList_unique hF' hF
    have h2 := zoneList_unique hG' hG
    subst h1 h2
    have hlen : a.length = b.length := by rw [ca, cb]; exact hlen
    have ha := za.2 hf
    have hb := zb.2 hg
    show pzCompute a b = _
    cases a with
    | nil => cases ha
    | cons x a =>
      cases b with
      | nil => cases hb
      | cons y b =>
        have hx : x = 0 := by
          rcases List.mem_cons.1 ha with h | h
          · exact h.symm
          · have := (List.pairwise_cons.1 sa).1 0 h; omega
        have hy : y = 0 := by
          rcases List.mem_cons.1 hb with h | h
          · exact h.symm
          · have := (List.pairwise_cons.1 sb).1 0 h; omega
        subst hx hy
        unfold pzCompute
        rw [if_neg (by simpa using hlen), if_neg (by simp), pzSum_zero]
        rfl
  · intro hc
    by_cases hlen : a.length = b.length
    · refine C24_pz_pairs a b na la lb ?_
      intro p hp
      obtain ⟨h1, h2⟩ := List.of_mem_zip (a := p.1) (b := p.2) hp
      apply Classical.byContradiction
      intro h0
      have hx : p.1 = 0 := by omega
      have hy : p.2 = 0 := by omega
      rw [hx] at h1
      rw [hy] at h2
      exact hc ⟨F, G, hF, hG, by rw [← ca, ← cb]; exact hlen, za.1 h1, zb.1 h2⟩
    · refine ⟨0, ?_, by omega, fun _ => rfl, fun h => absurd h hlen⟩
      show pzCompute a b = _
      unfold pzCompute
      rw [if_pos hlen]

/-- A strip of 102 pixels with a letter pixel in column 1. -/
def strip : Image := ⟨⟨102, 1⟩, 45 :: 120 :: List.replicate 100 45⟩

/-- **C24 negation**: comparing two vectors produced by `load` can divide by zero. -/
theorem C24_pz_division_by_zero : ∃ i : Image, i.WF ∧ 0 < i.bounds.w ∧ 0 < i.bounds.h ∧
    ∃ r, propZoneLoad i = .ok r ∧ pzRel.compute r r = .ub := by
  refine ⟨strip, ⟨?_, ?_, ?_, ?_⟩, ?_, ?_, [0, 99], ?_, ?_⟩ <;> decide +kernel

/-- **C24 negation**: the similarity of two loaded vectors depends on their order. -/
theorem C24_pz_asymmetric : ∃ i j : Image, i.WF ∧ j.WF ∧ ∃ a b, propZoneLoad i = .ok a ∧
    propZoneLoad j = .ok b ∧ pzRel.compute a b = .ok 97 ∧ pzRel.compute b a = .ok 99 := by
  refine ⟨⟨⟨11, 1⟩, [45, 45, 45, 120, 45, 45, 45, 45, 45, 45, 45]⟩,
    ⟨⟨11, 1⟩, [45, 45, 45, 45, 45, 120, 45, 45, 45, 45, 45]⟩,
    ⟨?_, ?_, ?_, ?_⟩, ⟨?_, ?_, ?_, ?_⟩, [30, 70], [50, 50], ?_, ?_, ?_, ?_⟩ <;> decide +kernel

end Ppocr.Props

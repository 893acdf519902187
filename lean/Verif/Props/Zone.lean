import Verif.Proofs.Zone

/-! # C21, C22, C23: zones of background pixels -/

namespace Ppocr.Props
open Ppocr Spec

/-- The sample of this file: three zones, one of them inside the letter.
```
xxxx-
x-x--
xxxxx
-----
``` -/
def ring : Image := ⟨⟨5, 4⟩, [120, 120, 120, 120, 45,
                              120, 45, 120, 45, 45,
                              120, 120, 120, 120, 120,
                              45, 45, 45, 45, 45]⟩

/-- **C21**: for every image of less than 2^31 pixels the labelling returns (no overflow of the stack, no
endless loop, nothing read outside), letters get label 0, and label `k+1` marks exactly the 4-connected
component of background pixels whose first pixel is the `k`-th in reading order. -/
theorem C21_zones (i : Image) (wf : i.WF) (hsz : 2 * (i.bounds.w * i.bounds.h) + 2 < W32) :
    ∃ m F, labelZones i = .ok (m, F.length) ∧ ZoneList i F ∧ m.length = i.bounds.w * i.bounds.h ∧
      (∀ p, p < i.bounds.w * i.bounds.h → (m[p]? = some 0 ↔ ¬ Bg i p)) ∧
      (∀ k f, F[k]? = some f → ∀ p, m[p]? = some (k + 1) ↔ Conn i f p) := by
  obtain ⟨m, F, e, inv⟩ := labelZones_ok wf hsz
  refine ⟨m, F, e, zoneList_of inv, inv.len, ?_, ?_⟩
  · intro p hp
    rw [← bg_label inv p]
    have hpl : p < m.length := by rw [inv.len]; exact hp
    simp [lab, hpl]
  · intro k f hk p
    rw [← inv.iff k f hk p]
    by_cases hpl : p < m.length
    · simp [lab, hpl]
    · rw [lab_ge (by omega), List.getElem?_eq_none (by omega)]
      simp

example : labelZones ring =
    .ok ([0, 0, 0, 0, 1, 0, 2, 0, 1, 1, 0, 0, 0, 0, 0, 3, 3, 3, 3, 3], 3) := by decide

/-- Above the size bound the 32-bit size of the work buffer wraps to 0 and the first access is outside of
it (here for a column of 2147483647 pixels). -/
theorem C21_huge_image (d : List Pixel) : labelZones ⟨⟨1, 2147483647⟩, d⟩ = .ub := by
  have e1 : Bounds.area ⟨1, 2147483647⟩ = 2147483646 + 1 := by decide
  have e2 : uadd (umul (2147483646 + 1) 2) 2 = 0 := by decide
  unfold labelZones
  simp only [e1, e2]
  rw [labelLoop, rd_of_ge (by simp)]
  rfl

open Classical in
/-- **C22**: the context of the zone features lists for every zone, in reading order of its first pixel,
how many of its pixels lie on each border; the zone vector holds the two corners, how many zones touch
each border and how many touch none; the counters of a border sum to its background pixels. -/
theorem C22_zone (i : Image) (wf : i.WF) (hw : 0 < i.bounds.w) (hh : 0 < i.bounds.h)
    (hsz : 4 * (i.bounds.w * i.bounds.h) < W32) :
    ∃ F, ZoneList i F ∧
      countZone i = .ok ⟨F.length, F.map (topOf i), F.map (rightOf i), F.map (bottomOf i),
        F.map (leftOf i)⟩ ∧
      zoneLoad i = .ok [(letter i 0 0).toNat, (letter i (i.bounds.w - 1) (i.bounds.h - 1)).toNat,
        F.countP fun f => decide (topOf i f ≠ 0), F.countP fun f => decide (rightOf i f ≠ 0),
        F.countP fun f => decide (bottomOf i f ≠ 0), F.countP fun f => decide (leftOf i f ≠ 0),
        F.countP fun f => decide (¬ OnBorder i f)] ∧
      (F.map (topOf i)).sum = (List.range i.bounds.w).countP (fun x => !letter i x 0) ∧
      (F.map (bottomOf i)).sum =
        (List.range i.bounds.w).countP (fun x => !letter i x (i.bounds.h - 1)) ∧
      (F.map (leftOf i)).sum = (List.range i.bounds.h).countP (fun y => !letter i 0 y) ∧
      (F.map (rightOf i)).sum =
        (List.range i.bounds.h).countP (fun y => !letter i (i.bounds.w - 1) y) := by
  obtain ⟨m, F, inv, e⟩ := countZone_ok wf hw hh hsz
  have hbg : ∀ x y, x < i.bounds.w → y < i.bounds.h →
      decide (Bg i (y * i.bounds.w + x)) = !letter i x y := by
    intro x y hx hy
    have := idx_lt hx hy
    unfold Bg
    rw [(divmod hx).1, (divmod hx).2]
    cases letter i x y <;> simp [this]
  refine ⟨F, zoneList_of inv, e, ?_, ?_, ?_, ?_, ?_⟩
  · unfold zoneLoad
    rw [e]
    simp only [Res.ok_bind]
    rw [get_eq wf hw hh (pix_pixD wf hw hh)]
    have hwl := wf.w_lt
    have hhl := wf.h_lt
    simp only [Res.ok_bind]
    rw [usub_eq (by omega) (by omega), usub_eq (by omega) (by omega),
      get_eq wf (by omega) (by omega) (pix_pixD (x := i.bounds.w - 1) (y := i.bounds.h - 1) wf
        (by omega) (by omega))]
    simp only [Res.ok_bind, Res.pure_eq]
    have hu : ∀ g : Nat → Nat, countUsed (F.map g) = F.countP fun f => decide (g f ≠ 0) := by
      intro g
      unfold countUsed
      rw [List.countP_map]
      apply List.countP_congr
      intro f _
      simp
    have hf := inv.few
    have hle : (infoOf i F).totalUsed ≤ F.length := by
      rw [totalUsed_eq]
      exact List.countP_le_length
    have ht : usub F.length (infoOf i F).totalUsed = F.countP fun f => decide (¬ OnBorder i f) := by
      rw [usub_eq (by omega) hle, totalUsed_eq]
      have := List.length_eq_countP_add_countP (l := F) (fun f => decide (OnBorder i f))
      rw [this, Nat.add_sub_cancel_left]
      apply List.countP_congr
      intro f _
      simp
    unfold infoOf at ht
    simp only [hu]
    rw [ht, isLetter_pixD wf hw hh, isLetter_pixD (x := i.bounds.w - 1) (y := i.bounds.h - 1) wf
      (by omega) (by omega)]
  · show (F.map (touch i (topPos i) i.bounds.w)).sum = _
    rw [sum_touch inv]
    apply List.countP_congr
    intro x hx
    rw [List.mem_range] at hx
    have := hbg x 0 hx hh
    rw [Nat.zero_mul, Nat.zero_add] at this
    rw [topPos, this]
  · show (F.map (touch i (bottomPos i) i.bounds.w)).sum = _
    rw [sum_touch inv]
    apply List.countP_congr
    intro x hx
    rw [List.mem_range] at hx
    rw [bottomPos, hbg x _ hx (by omega)]
  · show (F.map (touch i (leftPos i) i.bounds.h)).sum = _
    rw [sum_touch inv]
    apply List.countP_congr
    intro y hy
    rw [List.mem_range] at hy
    have := hbg 0 y hw hy
    rw [Nat.add_zero] at this
    rw [leftPos, this]
  · show (F.map (touch i (rightPos i) i.bounds.h)).sum = _
    rw [sum_touch inv]
    apply List.countP_congr
    intro y hy
    rw [List.mem_range] at hy
    rw [rightPos, hbg _ y (by omega) hy]

example : zoneLoad ring = .ok [1, 0, 1, 2, 1, 1, 1] := by decide
example : countZone ring = .ok ⟨3, [1, 0, 0], [2, 0, 1], [0, 0, 5], [0, 0, 1]⟩ := by decide

open Classical in
/-- **C23**: the vector is the sorted list of the percentages of the border extents of the zones that touch
the border: one entry for each of them, summing to at most 100; nothing is divided by zero. -/
theorem C23_proportionality_zone (i : Image) (wf : i.WF) (hw : 0 < i.bounds.w) (hh : 0 < i.bounds.h)
    (hsz : 100 * (i.bounds.w * i.bounds.h) + 100 < W32) :
    ∃ F r, ZoneList i F ∧ propZoneLoad i = .ok r ∧ r.Pairwise (· ≤ ·) ∧
      r.length = F.countP (fun f => decide (OnBorder i f)) ∧ r.sum ≤ 100 ∧
      r.Perm ((F.filter fun f => decide (OnBorder i f)).map fun f =>
        100 * extent i f / (F.map (extent i)).sum) := by
  have h1 : i.bounds.w * 1 ≤ i.bounds.w * i.bounds.h := Nat.mul_le_mul_left _ hh
  have h2 : 1 * i.bounds.h ≤ i.bounds.w * i.bounds.h := Nat.mul_le_mul_right _ hw
  have h3 : i.bounds.w + i.bounds.h ≤ i.bounds.w * i.bounds.h + 1 := by
    obtain ⟨a, ha⟩ : ∃ a, i.bounds.w = a + 1 := ⟨i.bounds.w - 1, by omega⟩
    obtain ⟨b, hb⟩ : ∃ b, i.bounds.h = b + 1 := ⟨i.bounds.h - 1, by omega⟩
    rw [ha, hb, Nat.add_mul, Nat.mul_add]
    have := Nat.zero_le (a * b)
    omega
  obtain ⟨m, F, inv, e⟩ := countZone_ok wf hw hh (by omega)
  have hsum := sum_extent_le inv
  -- the values written by the loop
  have hvs : ((List.range F.length).map (infoOf i F).value).filter (fun v => v != 0) =
      (F.filter fun f => decide (OnBorder i f)).map (extent i) := by
    rw [values_eq, List.filter_map]
    congr 1
    apply List.filter_congr
    intro f _
    simp only [Function.comp]
    have := extent_ne (i := i) (f := f)
    by_cases h : OnBorder i f
    · simp [h, this.2 h]
    · have h0 : extent i f = 0 := by
        apply Classical.byContradiction
        intro hn
        exact h (this.1 hn)
      simp [h, h0]
  have hvsum : ((F.filter fun f => decide (OnBorder i f)).map (extent i)).sum =
      (F.map (extent i)).sum := by
    have : ∀ G : List Nat, ((G.filter fun f => decide (OnBorder i f)).map (extent i)).sum =
        (G.map (extent i)).sum := by
      intro G
      induction G with
      | nil => rfl
      | cons a G ih =>
        by_cases h : OnBorder i a
        · simp [h, ih]
        · have h0 : extent i a = 0 := by
            apply Classical.byContradiction
            intro hn
            exact h (extent_ne.1 hn)
          simp [h, ih, h0]
    exact this F
  have hmap : ∀ v ∈ (F.filter fun f => decide (OnBorder i f)).map (extent i),
      udiv (umul v 100) (F.map (extent i)).sum = .ok (100 * v / (F.map (extent i)).sum) := by
    intro v hv
    obtain ⟨f, hf, rfl⟩ := List.mem_map.1 hv
    have hb := extent_bound i f
    have hpos : extent i f ≠ 0 := by
      rw [List.mem_filter] at hf
      exact extent_ne.2 (of_decide_eq_true hf.2)
    have hle : extent i f ≤ (F.map (extent i)).sum := by
      rw [← hvsum]
      exact le_sum_of_mem hv
    unfold udiv
    rw [if_neg (by omega), umul_eq (by omega), Nat.mul_comm]
  have hr : propZoneLoad i = .ok (sortNat (((F.filter fun f => decide (OnBorder i f)).map (extent i)).map
      fun v => 100 * v / (F.map (extent i)).sum)) := by
    unfold propZoneLoad
    rw [e]
    simp only [Res.ok_bind]
    have := hvs
    unfold infoOf at this
    rw [this, foldl_uadd _ 0 (by rw [hvsum]; simp only [W32] at *; omega), Nat.zero_add, hvsum,
      mapM_ok _ _ _ hmap]
    rfl
  have hp := sortNat_perm (((F.filter fun f => decide (OnBorder i f)).map (extent i)).map
      fun v => 100 * v / (F.map (extent i)).sum)
  refine ⟨F, _, zoneList_of inv, hr, sortNat_sorted _, ?_, ?_, ?_⟩
  · rw [hp.length_eq, List.length_map, List.length_map, List.countP_eq_length_filter]
  · rw [hp.sum_nat]
    have hd := sum_div_le (((F.filter fun f => decide (OnBorder i f)).map (extent i)).map
      fun v => 100 * v) (F.map (extent i)).sum
    rw [List.map_map] at hd
    have hm : (((F.filter fun f => decide (OnBorder i f)).map (extent i)).map
        fun v => 100 * v).sum = 100 * (F.map (extent i)).sum := by
      rw [← hvsum]
      generalize (F.filter fun f => decide (OnBorder i f)).map (extent i) = l
      induction l with
      | nil => rfl
      | cons a l ih => simp only [List.map_cons, List.sum_cons, ih, Nat.mul_add]
    rw [hm] at hd
    have h100 : 100 * (F.map (extent i)).sum / (F.map (extent i)).sum ≤ 100 := by
      apply Nat.div_le_of_le_mul
      rw [Nat.mul_comm]
      exact Nat.le_refl _
    exact Nat.le_trans hd h100
  · rw [List.map_map] at hp
    rw [List.map_map]
    exact hp

example : propZoneLoad ring = .ok [50, 50] := by decide
example : propZoneLoad ⟨⟨2, 1⟩, [120, 120]⟩ = .ok [] := by decide

end Ppocr.Props

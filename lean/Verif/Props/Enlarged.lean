import Verif.Proofs.Enlarged

/-! # C119: which features do not depend on the size a picture is scanned at -/

namespace Ppocr.Props
open Ppocr Spec

/-- Blowing up gives an enlarged picture, of a size that fits. -/
theorem enlarge_ok (k : Nat) (i : Image) (hk : 0 < k) : Enlarged k i (enlarge k i) := by
  refine ⟨hk, rfl, rfl, ?_⟩
  intro x y
  by_cases h : x < k * i.bounds.w ∧ y < k * i.bounds.h
  · have := pix_grid (fun y x => if letter i (x / k) (y / k) then (120 : Pixel) else 45) h.1 h.2
    unfold letter at this ⊢
    unfold enlarge grid letter at *
    rw [this]
    cases hb : (pix i (x / k) (y / k) == some chX) <;> simp [chX]
  · have h2 : ¬ (x / k < i.bounds.w ∧ y / k < i.bounds.h) := by
      rw [lt_mul_div hk, lt_mul_div hk]
      exact h
    unfold letter
    rw [pix_none h2, pix_none (i := enlarge k i) h]

/-- **C119, density.** -/
theorem C119_density {k : Nat} {i j : Image} (e : Enlarged k i j) (si : Sized i) (sj : Sized j) :
    densityLoad j = densityLoad i := by
  have ai := si.area
  have aj := sj.area
  rw [(C15_density i si.wf si.w si.h (by simp only [W32]; omega)).1,
    (C15_density j sj.wf sj.w sj.h (by simp only [W32]; omega)).1, mass_enlarged e, e.wide, e.high]
  have h1 : 100 * (k * k * mass i) = k * k * (100 * mass i) := Nat.mul_left_comm _ _ _
  have h2 : k * i.bounds.w * (k * i.bounds.h) = k * k * (i.bounds.w * i.bounds.h) := by
    simp only [Nat.mul_assoc, Nat.mul_left_comm]
  rw [h1, h2, Nat.mul_div_mul_left _ _ (Nat.mul_pos e.pos e.pos)]

/-- **C119, proportionality.** -/
theorem C119_proportionality {k : Nat} {i j : Image} (e : Enlarged k i j) (si : Sized i) (sj : Sized j) :
    proportionalityLoad j = proportionalityLoad i := by
  have ai := si.area
  have aj := sj.area
  rw [(C15_proportionality i si.w si.h (by simp only [W32]; omega)).1,
    (C15_proportionality j sj.w sj.h (by simp only [W32]; omega)).1, e.wide, e.high, ← Nat.mul_add,
    Nat.mul_left_comm, Nat.mul_div_mul_left _ _ e.pos]

/-- **C119, bars.** -/
theorem C119_hbar {k : Nat} {i j : Image} (e : Enlarged k i j) (si : Sized i) (sj : Sized j) :
    hbarLoad j = hbarLoad i := by
  rw [C19_hbar i si.wf si.w, C19_hbar j sj.wf sj.w, fullBlocks_enlarged e]

/-- **C119, zones.** -/
theorem C119_zone {k : Nat} {i j : Image} (e : Enlarged k i j) (si : Sized i) (sj : Sized j) :
    zoneLoad j = zoneLoad i := by
  classical
  have ai := si.area
  have aj := sj.area
  obtain ⟨F, f1, _, f2, _⟩ := C22_zone i si.wf si.w si.h (by simp only [W32]; omega)
  obtain ⟨G, g1, _, g2, _⟩ := C22_zone j sj.wf sj.w sj.h (by simp only [W32]; omega)
  rw [f2, g2, zoneList_unique g1 (zones_enlarged e f1)]
  have hb := fun f (hf : f ∈ F) => borders_enlarged e si.w si.h ((f1.mem f).mp hf).1.1
  have hk : ∀ n, k * n ≠ 0 ↔ n ≠ 0 := by
    intro n
    have := e.pos
    rw [Nat.mul_ne_zero_iff]
    omega
  have c1 : letter j 0 0 = letter i 0 0 := by rw [e.cells, Nat.zero_div]
  have c2 : letter j (j.bounds.w - 1) (j.bounds.h - 1) = letter i (i.bounds.w - 1) (i.bounds.h - 1) := by
    rw [e.cells, e.wide, e.high, last_div e.pos si.w, last_div e.pos si.h]
  have cnt : ∀ (P Q : Nat → Prop) [DecidablePred P] [DecidablePred Q], (∀ f ∈ F, (P (grown k i.bounds.w f 0 0) ↔ Q f)) →
      (F.map fun f => grown k i.bounds.w f 0 0).countP (fun f => decide (P f)) =
        F.countP fun f => decide (Q f) := by
    intro P Q _ _ h
    rw [List.countP_map]
    apply List.countP_congr
    intro f hf
    simp only [Function.comp, decide_eq_true_iff, h f hf]
  rw [c1, c2, cnt (fun f => topOf j f ≠ 0) (fun f => topOf i f ≠ 0) (fun f hf => by rw [(hb f hf).1, hk]),
    cnt (fun f => rightOf j f ≠ 0) (fun f => rightOf i f ≠ 0) (fun f hf => by rw [(hb f hf).2.1, hk]),
    cnt (fun f => bottomOf j f ≠ 0) (fun f => bottomOf i f ≠ 0) (fun f hf => by rw [(hb f hf).2.2.1, hk]),
    cnt (fun f => leftOf j f ≠ 0) (fun f => leftOf i f ≠ 0) (fun f hf => by rw [(hb f hf).2.2.2, hk]),
    cnt (fun f => ¬ OnBorder j f) (fun f => ¬ OnBorder i f)
      (fun f hf => by rw [onBorder_enlarged e si.w si.h ((f1.mem f).mp hf).1.1])]

/-- **C119, proportions of the zones.** -/
theorem C119_propZone {k : Nat} {i j : Image} (e : Enlarged k i j) (si : Sized i) (sj : Sized j) :
    propZoneLoad j = propZoneLoad i := by
  classical
  have ai := si.area
  have aj := sj.area
  obtain ⟨F, r, f1, f2, f3, _, _, f4⟩ :=
    C23_proportionality_zone i si.wf si.w si.h (by simp only [W32]; omega)
  obtain ⟨G, t, g1, g2, g3, _, _, g4⟩ :=
    C23_proportionality_zone j sj.wf sj.w sj.h (by simp only [W32]; omega)
  rw [f2, g2]
  rw [zoneList_unique g1 (zones_enlarged e f1)] at g4
  have hx := fun f (hf : f ∈ F) => extent_enlarged e si.w si.h ((f1.mem f).mp hf).1.1
  have h1 : ((F.map fun f => grown k i.bounds.w f 0 0).map (extent j)).sum =
      k * (F.map (extent i)).sum := by
    have : ∀ l : List Nat, (∀ f ∈ l, f ∈ F) → ((l.map fun f => grown k i.bounds.w f 0 0).map (extent j)).sum =
        k * (l.map (extent i)).sum := by
      intro l
      induction l with
      | nil => intro _; simp
      | cons a l ih =>
        intro h
        simp only [List.map_cons, List.sum_cons]
        rw [ih (fun f hf => h f (List.mem_cons_of_mem _ hf)), hx a (h a (List.mem_cons_self ..)), Nat.mul_add]
    exact this F fun f hf => hf
  rw [h1, List.filter_map, List.map_map] at g4
  have h2 : F.filter ((fun f => decide (OnBorder j f)) ∘ fun f => grown k i.bounds.w f 0 0) =
      F.filter fun f => decide (OnBorder i f) := by
    apply List.filter_congr
    intro f hf
    simp only [Function.comp, onBorder_enlarged e si.w si.h ((f1.mem f).mp hf).1.1]
  rw [h2] at g4
  have h3 : ((F.filter fun f => decide (OnBorder i f)).map
      ((fun f => 100 * extent j f / (k * (F.map (extent i)).sum)) ∘ fun f => grown k i.bounds.w f 0 0)) =
      (F.filter fun f => decide (OnBorder i f)).map fun f => 100 * extent i f / (F.map (extent i)).sum := by
    apply List.map_congr_left
    intro f hf
    simp only [Function.comp]
    rw [hx f (List.mem_filter.mp hf).1, Nat.mul_left_comm, Nat.mul_div_mul_left _ _ e.pos]
  rw [h3] at g4
  rw [List.Perm.eq_of_pairwise (fun a b _ _ => Nat.le_antisymm) g3 f3 (g4.trans f4.symm)]

/-- **C119, all sizes**: the six columns without a unit are the same for a picture and the picture blown
up any number of times. -/
theorem C119_free {k : Nat} {i j r t : Image} (e : Enlarged k i j) (si : Sized i) (sj : Sized j)
    (hr : i.rotate90 = .ok r) (ht : j.rotate90 = .ok t) {s : Feat × Policy} (hs : s ∈ scaleFree) :
    feature s j t = feature s i r := by
  obtain ⟨wr, rw1, rh1, _⟩ := rot_pix si.wf hr
  obtain ⟨wt, tw1, th1, _⟩ := rot_pix sj.wf ht
  have et := enlarged_turned e si.wf sj.wf hr ht
  have hb : hbarLoad t = hbarLoad r := by
    rw [C19_hbar r wr (by rw [rw1]; exact si.h), C19_hbar t wt (by rw [tw1]; exact sj.h),
      fullBlocks_enlarged et]
  simp only [scaleFree, List.mem_cons, List.not_mem_nil, or_false] at hs
  rcases hs with rfl | rfl | rfl | rfl | rfl | rfl <;> simp only [feature, Feat.load]
  · rw [C119_proportionality e si sj]
  · rw [C119_density e si sj]
  · rw [C119_hbar e si sj]
  · rw [hb]
  · rw [C119_zone e si sj]
  · rw [C119_propZone e si sj]

/-- **C119, even height**: the two columns comparing the upper and the lower half. -/
theorem C119_halves {k : Nat} {i j : Image} (e : Enlarged k i j) (si : Sized i) (sj : Sized j)
    (he : i.bounds.h % 2 = 0) :
    hdirectionLoad j = hdirectionLoad i ∧ hdirection2Load j = hdirection2Load i := by
  have ai := si.area
  have aj := sj.area
  have li := half_le i
  have lj := half_le j
  obtain ⟨b1, b2, b3⟩ := direction_bound si.wf wholeRow
  obtain ⟨d1, d2, d3⟩ := direction_bound sj.wf wholeRow
  have kk : 0 < k * k := Nat.mul_pos e.pos e.pos
  have ht := topMass_enlarged e he
  have hb := bottomMass_enlarged e he
  have hi := C16_horizontal_direction i si.wf si.w si.h
  have hj := C16_horizontal_direction j sj.wf sj.w sj.h
  have hW : W32 = 4294967296 := rfl
  constructor
  · unfold hdirectionLoad ratio200
    rw [hi, hj]
    simp only [Res.ok_bind]
    rw [uadd_eq (by omega), uadd_eq (by omega)]
    have h0 : topMass j unit wholeRow + bottomMass j unit wholeRow =
        k * k * (topMass i unit wholeRow + bottomMass i unit wholeRow) := by rw [ht, hb, Nat.mul_add]
    by_cases h : topMass i unit wholeRow + bottomMass i unit wholeRow = 0
    · rw [h0, h, Nat.mul_zero, if_neg (by omega), if_neg (by omega)]
    · have h' : topMass j unit wholeRow + bottomMass j unit wholeRow ≠ 0 := by
        rw [h0]
        exact Nat.mul_ne_zero (by omega) h
      rw [if_pos h, if_pos h', percent_eq (by simp only; omega) (by simp only; omega)
        (by simp only; omega) (by omega), percent_eq (by simp only; omega) (by simp only; omega)
        (by simp only; omega) (by omega)]
      have e1 : topMass j unit wholeRow + bottomMass j unit wholeRow + topMass j unit wholeRow -
          bottomMass j unit wholeRow = k * k * (2 * topMass i unit wholeRow) := by
        rw [Nat.mul_left_comm, ← ht]; omega
      have e2 : topMass i unit wholeRow + bottomMass i unit wholeRow + topMass i unit wholeRow -
          bottomMass i unit wholeRow = 2 * topMass i unit wholeRow := by omega
      simp only
      rw [e1, e2, h0, Nat.mul_assoc (k * k), Nat.mul_div_mul_left _ _ kk]
  · have hh := si.h
    have hh' : 0 < i.bounds.h / 2 := by omega
    have hhj : j.bounds.h / 2 = k * (i.bounds.h / 2) := by rw [e.high, half_enlarged he]
    have hhj' : 0 < j.bounds.h / 2 := by rw [hhj]; exact Nat.mul_pos e.pos hh'
    have pi : 0 < i.bounds.h / 2 * i.bounds.w := Nat.mul_pos hh' si.w
    have pj : 0 < j.bounds.h / 2 * j.bounds.w := Nat.mul_pos hhj' sj.w
    unfold hdirection2Load
    simp only
    rw [if_neg (by omega), if_neg (by omega), hi, hj, umul_eq b3, umul_eq d3]
    simp only [Res.ok_bind]
    rw [umul_eq (by omega), umul_eq (by omega), percent_eq (by simp only; omega) (by simp only; omega)
        (by simp only; omega) (by omega), percent_eq (by simp only; omega) (by simp only; omega)
        (by simp only; omega) (by omega)]
    have ea : j.bounds.h / 2 * j.bounds.w = k * k * (i.bounds.h / 2 * i.bounds.w) := by
      rw [hhj, e.wide]
      simp only [Nat.mul_assoc, Nat.mul_left_comm]
    simp only [ea, ht, hb]
    rw [← Nat.mul_add, ← Nat.mul_sub, Nat.mul_assoc (k * k), Nat.mul_assoc (k * k), Nat.mul_div_mul_left _ _ kk]

/-- **C119, sides that are multiples of three**: the alternations. -/
theorem C119_alternations {k : Nat} {i j r t : Image} (e : Enlarged k i j) (si : Sized i) (sj : Sized j)
    (hr : i.rotate90 = .ok r) (ht : j.rotate90 = .ok t) (hh : i.bounds.h % 3 = 0)
    (hw : i.bounds.w % 3 = 0) : alternationsLoad j t = alternationsLoad i r := by
  obtain ⟨wr, rw1, rh1, _⟩ := rot_pix si.wf hr
  obtain ⟨wt, tw1, th1, _⟩ := rot_pix sj.wf ht
  have et := enlarged_turned e si.wf sj.wf hr ht
  have hk := e.pos
  have hW : W32 = 4294967296 := rfl
  have side : ∀ x : Image, Sized x → 2 * x.bounds.h < W32 ∧ x.bounds.w + 1 < W32 ∧ x.bounds.h + 1 < W32 := by
    intro x sx
    have a := sx.area
    have h1 : x.bounds.w * 1 ≤ x.bounds.w * x.bounds.h := Nat.mul_le_mul_left _ sx.h
    have h2 : 1 * x.bounds.h ≤ x.bounds.w * x.bounds.h := Nat.mul_le_mul_right _ sx.w
    omega
  obtain ⟨i1, i2, i3⟩ := side i si
  obtain ⟨j1, j2, j3⟩ := side j sj
  rw [C20_entries i r si.wf wr si.w si.h (by rw [rw1]; exact si.h) (by rw [rh1]; exact si.w) i1 i2
      (by rw [rw1]; exact i3),
    C20_entries j t sj.wf wt sj.w sj.h (by rw [tw1]; exact sj.h) (by rw [th1]; exact sj.w) j1 j2
      (by rw [tw1]; exact j3)]
  have s1 := si.h
  have s2 := si.w
  have hge : i.bounds.h ≤ j.bounds.h := by rw [e.high]; exact Nat.le_mul_of_pos_left _ hk
  have r3 : r.bounds.h % 3 = 0 := by rw [rh1]; exact hw
  have hj3 : j.bounds.h / 3 = k * (i.bounds.h / 3) := by rw [e.high, third_enlarged hh]
  have ht3 : t.bounds.h / 3 = k * (r.bounds.h / 3) := by rw [et.high, third_enlarged r3]
  have q0 : (j.bounds.h - 2) / 3 / k = (i.bounds.h - 2) / 3 := by
    rw [Nat.div_div_eq_div_mul, Nat.mul_comm 3 k, ← Nat.div_div_eq_div_mul, e.high]
    have : k * i.bounds.h = k * (i.bounds.h - 1) + k := by
      rw [← Nat.mul_succ]; congr 1; omega
    rcases Nat.lt_or_ge 1 k with h1 | h1
    · have h2 : k * i.bounds.h - 2 = k * (i.bounds.h - 1) + (k - 2) := by omega
      rw [h2, block_div (by omega)]
      omega
    · have h2 : k = 1 := by omega
      subst h2
      simp
  have q1 : (2 * j.bounds.h - 1) / 3 / k = (2 * i.bounds.h - 1) / 3 := by
    rw [Nat.div_div_eq_div_mul, Nat.mul_comm 3 k, ← Nat.div_div_eq_div_mul, e.high, Nat.mul_left_comm,
      last_div hk (by omega)]
  have q2 : (t.bounds.h - 1) / 2 / k = (r.bounds.h - 1) / 2 := by
    rw [Nat.div_div_eq_div_mul, Nat.mul_comm 2 k, ← Nat.div_div_eq_div_mul, et.high,
      last_div hk (by omega)]
  have z : ∀ (a b : Image) (n : Nat), Enlarged k a b → runs (shadow b 0 (k * n)) = runs (shadow a 0 n) := by
    intro a b n h
    have := shadow_enlarged h 0 n
    rw [Nat.mul_zero] at this
    rw [this, runs_stretch hk]
  unfold documented
  rw [if_neg (by omega), if_neg (by omega), strip_enlarged e, strip_enlarged e, strip_enlarged et, q0, q1,
    q2, hj3, ht3, z i j _ e, z r t _ et, e.high, et.high, ← Nat.mul_sub, ← Nat.mul_sub, shadow_enlarged e,
    shadow_enlarged et]
  simp only [runs_stretch hk]

/-- A picture of 5 by 5. -/
def unlucky : Image := ⟨⟨5, 5⟩, [45, 45, 45, 45, 120,
                                 120, 120, 120, 45, 45,
                                 45, 45, 120, 120, 120,
                                 120, 45, 45, 45, 45,
                                 120, 120, 120, 120, 45]⟩
/-- The same turned. -/
def unluckyTurned : Image := ⟨⟨5, 5⟩, [120, 45, 120, 45, 45,
                                       45, 45, 120, 45, 120,
                                       45, 120, 120, 45, 120,
                                       45, 120, 45, 45, 120,
                                       45, 120, 45, 120, 120]⟩

theorem unlucky_sized : Sized unlucky :=
  ⟨⟨by decide, by decide, by decide, by decide⟩, by decide, by decide, by decide, by decide⟩
theorem unlucky_twice_sized : Sized (enlarge 2 unlucky) :=
  ⟨⟨by decide +kernel, by decide, by decide, by decide⟩, by decide, by decide, by decide, by decide⟩

theorem unlucky_turned : unlucky.rotate90 = .ok unluckyTurned := by decide +kernel
theorem unlucky_twice_turned : (enlarge 2 unlucky).rotate90 = .ok (enlarge 2 unluckyTurned) := by
  decide +kernel

/-- Every other column changes when this picture is doubled. -/
theorem unlucky_changes : ∀ s ∈ registered, s ∉ scaleFree →
    feature s (enlarge 2 unlucky) (enlarge 2 unluckyTurned) ≠ feature s unlucky unluckyTurned := by
  decide +kernel

/-- **C119**: of the 25 columns, exactly six never depend on the size at which a picture was scanned. -/
theorem C119_exact (s : Feat × Policy) (hs : s ∈ registered) :
    s ∈ scaleFree ↔ ∀ (k : Nat) (i j r t : Image), Enlarged k i j → Sized i → Sized j →
      i.rotate90 = .ok r → j.rotate90 = .ok t → feature s j t = feature s i r := by
  constructor
  · intro h k i j r t e si sj hr ht
    exact C119_free e si sj hr ht h
  · intro h
    apply Classical.byContradiction
    intro hn
    exact unlucky_changes s hs hn (h 2 _ _ _ _ (enlarge_ok 2 _ (by omega)) unlucky_sized
      unlucky_twice_sized unlucky_turned unlucky_twice_turned)

/-- **C119, the turned picture**: for an even width the two columns comparing left and right. -/
theorem C119_sides {k : Nat} {i j r t : Image} (e : Enlarged k i j) (si : Sized i) (sj : Sized j)
    (hr : i.rotate90 = .ok r) (ht : j.rotate90 = .ok t) (he : i.bounds.w % 2 = 0) :
    feature (.hdirection, .img90) j t = feature (.hdirection, .img90) i r ∧
    feature (.hdirection2, .img90) j t = feature (.hdirection2, .img90) i r := by
  have turned : ∀ {x y : Image}, Sized x → x.rotate90 = .ok y → Sized y := by
    intro x y sx h
    obtain ⟨wy, y1, y2, _⟩ := rot_pix sx.wf h
    have ha := sx.area
    have hg := sx.grav
    refine ⟨wy, by rw [y1]; exact sx.h, by rw [y2]; exact sx.w, ?_, ?_⟩
    · rw [y1, y2, Nat.mul_comm x.bounds.h]
      exact ha
    · rw [y1, y2, Nat.mul_comm x.bounds.h, Nat.add_comm x.bounds.h]
      exact hg
  obtain ⟨h1, h2⟩ := C119_halves (enlarged_turned e si.wf sj.wf hr ht) (turned si hr) (turned sj ht)
    (by rw [(rot_pix si.wf hr).2.2.1]; exact he)
  simp only [feature, Feat.load]
  rw [h1, h2]
  exact ⟨rfl, rfl⟩

/-- The zones of the picture above and of the picture blown up three times. -/
example : zoneLoad unlucky = .ok [0, 0, 1, 2, 1, 2, 0] ∧
    zoneLoad (enlarge 3 unlucky) = .ok [0, 0, 1, 2, 1, 2, 0] := by
  have h : zoneLoad unlucky = .ok [0, 0, 1, 2, 1, 2, 0] := by decide +kernel
  refine ⟨h, ?_⟩
  rw [C119_zone (enlarge_ok 3 _ (by omega)) unlucky_sized
    ⟨⟨by decide +kernel, by decide, by decide, by decide⟩, by decide, by decide, by decide, by decide⟩, h]

/-- The gravity changes. -/
example : hgravityLoad unlucky ≠ hgravityLoad (enlarge 2 unlucky) := by decide +kernel

end Ppocr.Props

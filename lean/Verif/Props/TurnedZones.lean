import Verif.Proofs.TurnedZones
import Verif.Props.Turned

/-! # C124: the zones of letters in a mirror and upside down -/

namespace Ppocr.Props
open Ppocr Spec

theorem countP_moved {F G : List Nat} {u : Nat → Nat} (hp : G.Perm (F.map u)) (P Q : Nat → Prop)
    {_ : DecidablePred P} {_ : DecidablePred Q} (h : ∀ f ∈ F, (P (u f) ↔ Q f)) : G.countP (fun g => decide (P g)) = F.countP fun f => decide (Q f) := by
  rw [hp.countP_eq, List.countP_map]
  apply List.countP_congr
  intro f hf
  simp only [Function.comp, decide_eq_true_iff, h f hf]

/-- **C124**: the half turn exchanges the two corners, the zones at the top and at the bottom, and those at the right
and at the left; the zones inside stay. -/
theorem C124_zone_turn {i j : Image} (e : HalfTurn i j) (si : Sized i) (sj : Sized j) :
    ∃ c d t r b l n, zoneLoad i = .ok [c, d, t, r, b, l, n] ∧ zoneLoad j = .ok [d, c, b, l, t, r, n] := by
  have ai := si.area
  have aj := sj.area
  have pw := si.w
  have ph := si.h
  have hb := e.bounds
  obtain ⟨F, f1, _, f2, _⟩ := C22_zone i si.wf si.w si.h (by simp only [W32]; omega)
  obtain ⟨G, g1, _, g2, _⟩ := C22_zone j sj.wf sj.w sj.h (by simp only [W32]; omega)
  have m := moved_placed (i := i) (j := j) (a := fun x => i.bounds.w - 1 - x) (b := fun y => i.bounds.h - 1 - y) hb
    (fun x hx => ⟨by omega, by omega⟩) (fun y hy => ⟨by omega, by omega⟩) (fun x hx => .inl (by omega))
    (fun y hy => .inl (by omega)) (fun x y hx hy => e.letters hx hy)
  obtain ⟨u, hp, hc⟩ := zones_moved m f1 g1
  have at' := fun {x y : Nat} (hx : x < i.bounds.w) => placed_at (w := i.bounds.w) (x := x) (y := y)
    (fun x => i.bounds.w - 1 - x) (fun y => i.bounds.h - 1 - y) hx
  have z0 : ∀ {k}, k < i.bounds.w → placed i.bounds.w (fun x => i.bounds.w - 1 - x) (fun y => i.bounds.h - 1 - y) k =
      (i.bounds.h - 1) * i.bounds.w + (i.bounds.w - 1 - k) := by
    intro k hk
    have := at' (x := k) (y := 0) hk
    rwa [Nat.zero_mul, Nat.zero_add, Nat.sub_zero] at this
  have z1 : ∀ {k}, k < i.bounds.w → placed i.bounds.w (fun x => i.bounds.w - 1 - x) (fun y => i.bounds.h - 1 - y)
      ((i.bounds.h - 1) * i.bounds.w + k) = i.bounds.w - 1 - k := by
    intro k hk
    rw [at' hk, Nat.sub_self, Nat.zero_mul, Nat.zero_add]
  have z2 : ∀ {k}, placed i.bounds.w (fun x => i.bounds.w - 1 - x) (fun y => i.bounds.h - 1 - y) (k * i.bounds.w) =
      (i.bounds.h - 1 - k) * i.bounds.w + (i.bounds.w - 1) := by
    intro k
    have := at' (x := 0) (y := k) pw
    rwa [Nat.add_zero, Nat.sub_zero] at this
  have z3 : ∀ {k}, placed i.bounds.w (fun x => i.bounds.w - 1 - x) (fun y => i.bounds.h - 1 - y)
      (k * i.bounds.w + (i.bounds.w - 1)) = (i.bounds.h - 1 - k) * i.bounds.w := by
    intro k
    rw [at' (by omega), Nat.sub_self, Nat.add_zero]
  have t1 : ∀ f ∈ F, (topOf j (u f) ≠ 0 ↔ bottomOf i f ≠ 0) := by
    intro f hf
    unfold topOf bottomOf
    rw [hb]
    refine touch_moved hc m (back := fun k => i.bounds.w - 1 - k) (fun k hk => by omega) (fun k hk => ?_) (fun k hk => ?_) hf
    · exact z0 hk
    · exact z1 hk
  have t2 : ∀ f ∈ F, (bottomOf j (u f) ≠ 0 ↔ topOf i f ≠ 0) := by
    intro f hf
    unfold topOf bottomOf
    rw [hb]
    refine touch_moved hc m (back := fun k => i.bounds.w - 1 - k) (fun k hk => by omega) (fun k hk => ?_) (fun k hk => ?_) hf
    · unfold bottomPos
      rw [hb]
      exact z1 hk
    · unfold bottomPos
      rw [hb]
      exact z0 hk
  have t3 : ∀ f ∈ F, (leftOf j (u f) ≠ 0 ↔ rightOf i f ≠ 0) := by
    intro f hf
    unfold leftOf rightOf
    rw [hb]
    refine touch_moved hc m (back := fun k => i.bounds.h - 1 - k) (fun k hk => by omega) (fun k hk => ?_) (fun k hk => ?_) hf
    · unfold leftPos
      rw [hb]
      exact z2
    · unfold leftPos
      rw [hb]
      exact z3
  have t4 : ∀ f ∈ F, (rightOf j (u f) ≠ 0 ↔ leftOf i f ≠ 0) := by
    intro f hf
    unfold leftOf rightOf
    rw [hb]
    refine touch_moved hc m (back := fun k => i.bounds.h - 1 - k) (fun k hk => by omega) (fun k hk => ?_) (fun k hk => ?_) hf
    · unfold rightPos
      rw [hb]
      exact z3
    · unfold rightPos
      rw [hb]
      exact z2
  refine ⟨_, _, _, _, _, _, _, f2, ?_⟩
  rw [g2, countP_moved hp (fun g => topOf j g ≠ 0) _ t1, countP_moved hp (fun g => bottomOf j g ≠ 0) _ t2,
    countP_moved hp (fun g => leftOf j g ≠ 0) _ t3, countP_moved hp (fun g => rightOf j g ≠ 0) _ t4,
    countP_moved hp (fun g => ¬ OnBorder j g) (fun f => ¬ OnBorder i f) (fun f hf => by
      unfold OnBorder
      rw [t1 f hf, t2 f hf, t3 f hf, t4 f hf]
      refine not_congr ?_
      constructor <;> (rintro (h | h | h | h) <;> simp [h])),
    e.letters pw ph, hb, e.letters (x := i.bounds.w - 1) (y := i.bounds.h - 1) (by omega) (by omega), Nat.sub_self,
    Nat.sub_self, Nat.sub_zero, Nat.sub_zero]

/-- **C124**: the mirror exchanges the zones at the right and at the left and takes the other two corners; the zones
at the top, at the bottom and inside stay. -/
theorem C124_zone_mirror {i j : Image} (e : Reflected i j) (si : Sized i) (sj : Sized j) :
    ∃ c d t r b l n, zoneLoad i = .ok [c, d, t, r, b, l, n] ∧
      zoneLoad j = .ok [(letter i (i.bounds.w - 1) 0).toNat, (letter i 0 (i.bounds.h - 1)).toNat, t, l, b, r, n] := by
  have ai := si.area
  have aj := sj.area
  have pw := si.w
  have ph := si.h
  have hb := e.bounds
  obtain ⟨F, f1, _, f2, _⟩ := C22_zone i si.wf si.w si.h (by simp only [W32]; omega)
  obtain ⟨G, g1, _, g2, _⟩ := C22_zone j sj.wf sj.w sj.h (by simp only [W32]; omega)
  have m := moved_placed (i := i) (j := j) (a := fun x => i.bounds.w - 1 - x) (b := fun y => y) hb
    (fun x hx => ⟨by omega, by omega⟩) (fun y hy => ⟨hy, rfl⟩) (fun x hx => .inl (by omega))
    (fun y hy => .inr rfl) (fun x y hx _ => e.letters x y hx)
  obtain ⟨u, hp, hc⟩ := zones_moved m f1 g1
  have at' := fun {x y : Nat} (hx : x < i.bounds.w) => placed_at (w := i.bounds.w) (x := x) (y := y)
    (fun x => i.bounds.w - 1 - x) (fun y => y) hx
  have z0 : ∀ {k}, k < i.bounds.w → placed i.bounds.w (fun x => i.bounds.w - 1 - x) (fun y => y) k =
      i.bounds.w - 1 - k := by
    intro k hk
    have := at' (x := k) (y := 0) hk
    rwa [Nat.zero_mul, Nat.zero_add, Nat.zero_add] at this
  have z2 : ∀ {k}, placed i.bounds.w (fun x => i.bounds.w - 1 - x) (fun y => y) (k * i.bounds.w) =
      k * i.bounds.w + (i.bounds.w - 1) := by
    intro k
    have := at' (x := 0) (y := k) pw
    rwa [Nat.add_zero, Nat.sub_zero] at this
  have z3 : ∀ {k}, placed i.bounds.w (fun x => i.bounds.w - 1 - x) (fun y => y)
      (k * i.bounds.w + (i.bounds.w - 1)) = k * i.bounds.w := by
    intro k
    rw [at' (by omega), Nat.sub_self, Nat.add_zero]
  have t1 : ∀ f ∈ F, (topOf j (u f) ≠ 0 ↔ topOf i f ≠ 0) := by
    intro f hf
    unfold topOf
    rw [hb]
    refine touch_moved hc m (back := fun k => i.bounds.w - 1 - k) (fun k hk => by omega) (fun k hk => ?_) (fun k hk => ?_) hf
    · exact z0 hk
    · exact z0 hk
  have t2 : ∀ f ∈ F, (bottomOf j (u f) ≠ 0 ↔ bottomOf i f ≠ 0) := by
    intro f hf
    unfold bottomOf
    rw [hb]
    refine touch_moved hc m (back := fun k => i.bounds.w - 1 - k) (fun k hk => by omega) (fun k hk => ?_) (fun k hk => ?_) hf
    · unfold bottomPos
      rw [hb]
      exact at' hk
    · unfold bottomPos
      rw [hb]
      exact at' hk
  have t3 : ∀ f ∈ F, (leftOf j (u f) ≠ 0 ↔ rightOf i f ≠ 0) := by
    intro f hf
    unfold leftOf rightOf
    rw [hb]
    refine touch_moved hc m (back := fun k => k) (fun k hk => hk) (fun k hk => ?_) (fun k hk => ?_) hf
    · unfold leftPos
      rw [hb]
      exact z2
    · unfold leftPos
      rw [hb]
      exact z3
  have t4 : ∀ f ∈ F, (rightOf j (u f) ≠ 0 ↔ leftOf i f ≠ 0) := by
    intro f hf
    unfold leftOf rightOf
    rw [hb]
    refine touch_moved hc m (back := fun k => k) (fun k hk => hk) (fun k hk => ?_) (fun k hk => ?_) hf
    · unfold rightPos
      rw [hb]
      exact z3
    · unfold rightPos
      rw [hb]
      exact z2
  refine ⟨_, _, _, _, _, _, _, f2, ?_⟩
  rw [g2, countP_moved hp (fun g => topOf j g ≠ 0) _ t1, countP_moved hp (fun g => bottomOf j g ≠ 0) _ t2,
    countP_moved hp (fun g => leftOf j g ≠ 0) _ t3, countP_moved hp (fun g => rightOf j g ≠ 0) _ t4,
    countP_moved hp (fun g => ¬ OnBorder j g) (fun f => ¬ OnBorder i f) (fun f hf => by
      unfold OnBorder
      rw [t1 f hf, t2 f hf, t3 f hf, t4 f hf]
      refine not_congr ?_
      constructor <;> (rintro (h | h | h | h) <;> simp [h])),
    e.letters 0 0 pw, hb, e.letters (i.bounds.w - 1) (i.bounds.h - 1) (by omega), Nat.sub_self, Nat.sub_zero]

/-- The zones of the crooked letter, upside down and in the mirror. -/
example : zoneLoad crooked = .ok [0, 0, 1, 1, 2, 1, 0] ∧ zoneLoad crookedDown = .ok [0, 0, 2, 1, 1, 1, 0] ∧
    zoneLoad crookedMirror = .ok [1, 0, 1, 1, 2, 1, 0] := by decide +kernel

/-- The two openings of an `E` are at its right, those of its mirror image at the left. -/
example : zoneLoad ⟨⟨3, 5⟩, [120, 120, 120, 120, 45, 45, 120, 120, 120, 120, 45, 45, 120, 120, 120]⟩ =
      .ok [1, 1, 0, 2, 0, 0, 0] ∧
    zoneLoad ⟨⟨3, 5⟩, [120, 120, 120, 45, 45, 120, 120, 120, 120, 45, 45, 120, 120, 120, 120]⟩ =
      .ok [1, 1, 0, 0, 0, 2, 0] := by decide +kernel

end Ppocr.Props

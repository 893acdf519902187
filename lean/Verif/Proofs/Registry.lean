import Verif.Proofs.Datas
import Verif.Props.Features
import Verif.Props.DzDensity
import Verif.Props.Alternations
import Verif.Props.Zone
import Verif.Props.Image

/-! # Helper lemmas: every registered feature of a sized image -/

namespace Ppocr
open Spec Props

theorem Spec.Sized.rotate {i : Image} (h : Sized i) :
    ∃ r, i.rotate90 = .ok r ∧ Sized r ∧ r.bounds.w = i.bounds.h ∧ r.bounds.h = i.bounds.w := by
  obtain ⟨r, e, wf, hw, hh, _⟩ := C02_rotate90 i h.wf
  refine ⟨r, e, ⟨wf, ?_, ?_, ?_, ?_⟩, hw, hh⟩
  · rw [hw]; exact h.h
  · rw [hh]; exact h.w
  · rw [hw, hh, Nat.mul_comm i.bounds.h]; exact h.area
  · rw [hw, hh, Nat.mul_comm i.bounds.h, Nat.add_comm i.bounds.h]; exact h.grav

theorem Spec.Sized.bounds {i : Image} (h : Sized i) :
    100 * (i.bounds.w * i.bounds.h) < W32 ∧ 100 * (i.bounds.w * i.bounds.h) < 2147483648 ∧
    200 * (i.bounds.h / 2 * (i.bounds.h / 2 + 1) / 2 * i.bounds.w) < W32 ∧
    i.bounds.h / 2 * (i.bounds.h / 2 + 1) < W32 ∧ 2 * i.bounds.h < W32 ∧ i.bounds.w + 1 < W32 ∧
    4 * (i.bounds.w * i.bounds.h) < W32 ∧ 100 * (i.bounds.w * i.bounds.h) + 100 < W32 := by
  have ha := h.area
  have hg := h.grav
  have hw := h.w
  have hh := h.h
  simp only [W32]
  generalize i.bounds.w = w at *
  generalize i.bounds.h = k at *
  have h1 : w * 1 ≤ w * k := Nat.mul_le_mul_left _ hh
  have h2 : 1 * k ≤ w * k := Nat.mul_le_mul_right _ hw
  generalize hm : k / 2 = m at *
  have hmk : 2 * m ≤ k := by omega
  -- 8 * (m * (m+1) / 2) ≤ 4 * m * (m + 1) ≤ k * (k + 2)
  have h3 : 2 * m * (2 * (m + 1)) ≤ k * (k + 2) := Nat.mul_le_mul hmk (by omega)
  have e3 : 2 * m * (2 * (m + 1)) = 4 * (m * (m + 1)) := by
    rw [Nat.mul_assoc, Nat.mul_left_comm m 2, ← Nat.mul_assoc 2 2]
  have h4 : w * (k * (k + 2)) ≤ w * k * (w + k + 2) := by
    rw [← Nat.mul_assoc]
    exact Nat.mul_le_mul_left _ (by omega)
  have h5 : 1 * (k * (k + 2)) ≤ w * (k * (k + 2)) := Nat.mul_le_mul_right _ hw
  generalize hq : m * (m + 1) = q at *
  have h6 : w * (4 * q) ≤ w * (k * (k + 2)) := Nat.mul_le_mul_left _ (by omega)
  have h7 : q / 2 * w ≤ q * w / 2 := by
    apply (Nat.le_div_iff_mul_le (by omega)).2
    rw [Nat.mul_assoc, Nat.mul_comm w, ← Nat.mul_assoc]
    exact Nat.mul_le_mul_right _ (Nat.div_mul_le_self q 2)
  have e6 : w * (4 * q) = 4 * (q * w) := by rw [Nat.mul_left_comm, Nat.mul_comm w q]
  refine ⟨by omega, by omega, by omega, by omega, by omega, by omega, by omega, by omega⟩

/-- The features whose value is a number in an interval. -/
def Feat.isSimple : Feat → Bool
  | .hbar | .alternations | .zone | .propZone => false
  | _ => true

theorem load_simple (f : Feat) (hf : f.isSimple = true) {i : Image} (h : Sized i) (r : Image) :
    ∃ n, f.load i r = .ok (.num n) ∧ n ≤ f.k := by
  obtain ⟨b1, b2, b3, b4, b5, b6, b7, b8⟩ := h.bounds
  have lift : ∀ (x : Res Nat) (m : Nat), (∃ v, x = .ok v ∧ v ≤ m) →
      ∃ n, (do return .num (← x) : Res Value) = .ok (.num n) ∧ n ≤ m := by
    rintro x m ⟨v, e, hv⟩
    exact ⟨v, by rw [e]; rfl, hv⟩
  cases f with
  | hdirection => exact lift _ _ (C15_direction200 i h.wf h.w h.h b1).1
  | dvdirection => exact lift _ _ (C15_direction200 i h.wf h.w h.h b1).2
  | hgravity => exact lift _ _ (C15_gravity200 i h.wf h.w h.h b3).1
  | dvgravity => exact lift _ _ (C15_gravity200 i h.wf h.w h.h b3).2
  | hdirection2 => exact lift _ _ (C15_hdirection2 i h.wf h.w h.h b1)
  | hgravity2 => exact lift _ _ (C15_hgravity2 i h.wf h.w h.h b3 b4)
  | dvdirection2 =>
    apply lift
    by_cases h1 : i.bounds.h = 1
    · exact ⟨50, (C15_dv2_single_row i h.wf h.w h1).1, by decide⟩
    · have := h.h
      obtain ⟨a, b⟩ := C15_dvdirection2 i h.wf h.w (by omega) b1
      exact ⟨_, a, b⟩
  | dvgravity2 =>
    apply lift
    by_cases h1 : i.bounds.h = 1
    · exact ⟨50, (C15_dv2_single_row i h.wf h.w h1).2, by decide⟩
    · have := h.h
      obtain ⟨a, b⟩ := C15_dvgravity2 i h.wf h.w (by omega) b3
      exact ⟨_, a, b⟩
  | dzdensity => exact lift _ _ (C15_dzdensity i h.wf b2)
  | proportionality =>
    obtain ⟨a, b⟩ := C15_proportionality i h.w h.h b1
    exact lift _ _ ⟨_, a, b⟩
  | density =>
    obtain ⟨a, b⟩ := C15_density i h.wf h.w h.h b1
    exact lift _ _ ⟨_, a, b⟩
  | hbar => exact absurd hf (by decide)
  | alternations => exact absurd hf (by decide)
  | zone => exact absurd hf (by decide)
  | propZone => exact absurd hf (by decide)

theorem load_hbar {i : Image} (h : Sized i) (r : Image) : ∃ n, Feat.hbar.load i r = .ok (.num n) :=
  have e := C19_hbar i h.wf h.w
  ⟨_, show (do return .num (← hbarLoad i) : Res Value) = _ by rw [e]; rfl⟩

theorem load_alternations {i r : Image} (h : Sized i) (hr : Sized r) :
    ∃ l, Feat.alternations.load i r = .ok (.alt l) ∧ l.length = 7 := by
  obtain ⟨b1, b2, b3, b4, b5, b6, b7, b8⟩ := h.bounds
  obtain ⟨c1, c2, c3, c4, c5, c6, c7, c8⟩ := hr.bounds
  refine ⟨documented i r, ?_, rfl⟩
  show (do return .alt (← alternationsLoad i r) : Res Value) = _
  rw [C20_entries i r h.wf hr.wf h.w h.h hr.w hr.h b5 b6 c6]
  rfl

theorem load_zone {i : Image} (h : Sized i) (r : Image) :
    ∃ l, Feat.zone.load i r = .ok (.arr l) ∧ l.length = 7 := by
  obtain ⟨b1, b2, b3, b4, b5, b6, b7, b8⟩ := h.bounds
  obtain ⟨F, _, _, e, _⟩ := C22_zone i h.wf h.w h.h b7
  exact ⟨_, show (do return .arr (← zoneLoad i) : Res Value) = _ by rw [e]; rfl, rfl⟩

theorem load_propZone {i : Image} (h : Sized i) (r : Image) :
    ∃ l, Feat.propZone.load i r = .ok (.arr l) ∧ l.sum ≤ 100 := by
  obtain ⟨b1, b2, b3, b4, b5, b6, b7, b8⟩ := h.bounds
  obtain ⟨F, l, _, e, _, _, hs, _⟩ := C23_proportionality_zone i h.wf h.w h.h b8
  refine ⟨l, ?_, hs⟩
  show (do return .arr (← propZoneLoad i) : Res Value) = _
  rw [e]
  rfl

theorem load_ok (f : Feat) {i r : Image} (h : Sized i) (hr : Sized r) : ∃ v, f.load i r = .ok v := by
  cases hf : f.isSimple with
  | true =>
    obtain ⟨n, e, _⟩ := load_simple f hf h r
    exact ⟨_, e⟩
  | false =>
    cases f with
    | hbar => obtain ⟨n, e⟩ := load_hbar h r; exact ⟨_, e⟩
    | alternations => obtain ⟨n, e, _⟩ := load_alternations h hr; exact ⟨_, e⟩
    | zone => obtain ⟨n, e, _⟩ := load_zone h r; exact ⟨_, e⟩
    | propZone => obtain ⟨n, e, _⟩ := load_propZone h r; exact ⟨_, e⟩
    | _ => exact absurd hf (by decide)

theorem feature_ok (s : Feat × Policy) {i r : Image} (h : Sized i) (hr : Sized r) :
    ∃ v, feature s i r = .ok v := by
  obtain ⟨f, p⟩ := s
  cases p with
  | img => exact load_ok f h hr
  | img90 => exact load_ok f hr h

end Ppocr

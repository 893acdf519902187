import Verif.Proofs.Turned

/-! # C124: letters in a mirror and upside down -/

namespace Ppocr.Props
open Ppocr Spec

theorem turned_sized {i r : Image} (si : Sized i) (hr : i.rotate90 = .ok r) : Sized r := by
  obtain ⟨wr, r1, r2, _⟩ := rot_pix si.wf hr
  have ha := si.area
  have hg := si.grav
  refine ⟨wr, by rw [r1]; exact si.h, by rw [r2]; exact si.w, ?_, ?_⟩
  · rw [r1, r2, Nat.mul_comm i.bounds.h]
    exact ha
  · rw [r1, r2, Nat.mul_comm i.bounds.h, Nat.add_comm i.bounds.h]
    exact hg

theorem density_of_mass {i m : Image} (si : Sized i) (sm : Sized m) (hb : m.bounds = i.bounds) (h : mass m = mass i) :
    densityLoad m = densityLoad i := by
  have ai := si.area
  have am := sm.area
  rw [(C15_density i si.wf si.w si.h (by simp only [W32]; omega)).1,
    (C15_density m sm.wf sm.w sm.h (by simp only [W32]; omega)).1, h, hb]

theorem proportionality_of_bounds {i m : Image} (hb : m.bounds = i.bounds) :
    proportionalityLoad m = proportionalityLoad i := by
  unfold proportionalityLoad
  rw [hb]

theorem hbar_of_blocks {i m : Image} (si : Sized i) (sm : Sized m) (h : fullBlocks m = fullBlocks i) :
    hbarLoad m = hbarLoad i := by
  rw [C19_hbar i si.wf si.w, C19_hbar m sm.wf sm.w, h]

/-- **C124**: a letter and the letter turned by 180 degrees, as `b` and `q`, `u` and `n` or `6` and `9`, have six
columns in common: the proportions, the density, the bars both ways and the densities of the two diagonal bands. -/
theorem C124_turn {i j r t : Image} (e : HalfTurn i j) (si : Sized i) (sj : Sized j) (hr : i.rotate90 = .ok r)
    (ht : j.rotate90 = .ok t) {s : Feat × Policy} (hs : s ∈ turnFree) : feature s j t = feature s i r := by
  have e' := halfTurn_turned e si.wf sj.wf hr ht
  have sr := turned_sized si hr
  have st := turned_sized sj ht
  have ai := si.area
  have ar := sr.area
  simp only [turnFree, List.mem_cons, List.not_mem_nil, or_false] at hs
  rcases hs with rfl | rfl | rfl | rfl | rfl | rfl <;> simp only [feature, Feat.load]
  · rw [proportionality_of_bounds e.bounds]
  · rw [density_of_mass si sj e.bounds (mass_turn e)]
  · rw [hbar_of_blocks si sj (fullBlocks_turn e)]
  · rw [hbar_of_blocks sr st (fullBlocks_turn e')]
  · rw [C18_half_turn i j si.wf sj.wf e (by omega)]
  · rw [C18_half_turn r t sr.wf st.wf e' (by omega)]

/-- **C124**: the half turn exchanges what the directions and gravities measure above and below the middle. -/
theorem C124_exchange {i j : Image} (e : HalfTurn i j) (si : Sized i) (sj : Sized j) :
    (∀ t, horizontalDirection i = .ok t → horizontalDirection j = .ok ⟨t.bottom, t.top⟩) ∧
    (∀ t, horizontalGravity i = .ok t → horizontalGravity j = .ok ⟨t.bottom, t.top⟩) ∧
    (∀ t, diagDirection i = .ok t → diagDirection j = .ok ⟨t.bottom, t.top⟩) ∧
    (∀ t, diagGravity i = .ok t → diagGravity j = .ok ⟨t.bottom, t.top⟩) := by
  have ht : triangle j = triangle i := by unfold triangle; rw [e.bounds]
  have hmid : toMiddle j = toMiddle i := by unfold toMiddle; rw [e.bounds]
  rw [horizontalDirection_mod sj.wf sj.w sj.h, horizontalDirection_mod si.wf si.w si.h,
    horizontalGravity_mod sj.wf sj.w sj.h, horizontalGravity_mod si.wf si.w si.h,
    diagDirection_mod sj.wf sj.w sj.h, diagDirection_mod si.wf si.w si.h,
    diagGravity_mod sj.wf sj.w sj.h, diagGravity_mod si.wf si.w si.h, ht, hmid]
  simp only [masses_turn e]
  refine ⟨?_, ?_, ?_, ?_⟩ <;> intro t h <;> cases h <;> rfl

theorem measures_reflected {i m : Image} (e : Reflected i m) (si : Sized i) (sm : Sized m) :
    horizontalDirection m = horizontalDirection i ∧ horizontalGravity m = horizontalGravity i ∧
    diagDirection m = diagDirection i ∧ diagGravity m = diagGravity i := by
  have ht : triangle m = triangle i := by unfold triangle; rw [e.bounds]
  have hmid : toMiddle m = toMiddle i := by unfold toMiddle; rw [e.bounds]
  rw [horizontalDirection_mod sm.wf sm.w sm.h, horizontalDirection_mod si.wf si.w si.h,
    horizontalGravity_mod sm.wf sm.w sm.h, horizontalGravity_mod si.wf si.w si.h,
    diagDirection_mod sm.wf sm.w sm.h, diagDirection_mod si.wf si.w si.h,
    diagGravity_mod sm.wf sm.w sm.h, diagGravity_mod si.wf si.w si.h, ht, hmid]
  simp only [masses_reflected e, and_self]

/-- **C124**: a letter and its mirror image, left to right, as `b` and `d` or `p` and `q`, have twelve columns in
common: the proportions, the density, the bars both ways, and all that compare above and below. -/
theorem C124_mirror {i m r t : Image} (e : Reflected i m) (si : Sized i) (sm : Sized m) (hr : i.rotate90 = .ok r)
    (ht : m.rotate90 = .ok t) {s : Feat × Policy} (hs : s ∈ mirrorFree) : feature s m t = feature s i r := by
  obtain ⟨hb, hc⟩ := reflected_turned e si.wf sm.wf hr ht
  obtain ⟨h1, h2, h3, h4⟩ := measures_reflected e si sm
  have sr := turned_sized si hr
  have st := turned_sized sm ht
  have hA : diagDirArea m = diagDirArea i := by
    unfold diagDirArea Image.dataAt Image.toSizeT
    rw [e.bounds]
  have hG : diagGravArea m = diagGravArea i := by
    unfold diagGravArea Image.dataAt Image.toSizeT
    rw [e.bounds]
  simp only [mirrorFree, List.mem_cons, List.not_mem_nil, or_false] at hs
  rcases hs with rfl | rfl | rfl | rfl | rfl | rfl | rfl | rfl | rfl | rfl | rfl | rfl <;> simp only [feature, Feat.load]
  · rw [proportionality_of_bounds e.bounds]
  · rw [density_of_mass si sm e.bounds (mass_reflected e)]
  · rw [hbar_of_blocks si sm (fullBlocks_reflected e)]
  · rw [hbar_of_blocks sr st (fullBlocks_mirrored hb hc)]
  · unfold hdirectionLoad
    rw [h1]
  · unfold hdirection2Load
    rw [h1, e.bounds]
  · unfold hgravityLoad
    rw [h2]
  · unfold hgravity2Load
    rw [h2, e.bounds]
  · unfold dvdirectionLoad
    rw [h3]
  · unfold dvdirection2Load
    rw [h3, hA]
  · unfold dvgravityLoad
    rw [h4]
  · unfold dvgravity2Load
    rw [h4, hG]

/-- **C124**: the mirror exchanges what the turned picture measures left and right of the middle. -/
theorem C124_sides {i m r t : Image} (e : Reflected i m) (si : Sized i) (sm : Sized m) (hr : i.rotate90 = .ok r)
    (ht : m.rotate90 = .ok t) :
    (∀ v, horizontalDirection r = .ok v → horizontalDirection t = .ok ⟨v.bottom, v.top⟩) ∧
    (∀ v, horizontalGravity r = .ok v → horizontalGravity t = .ok ⟨v.bottom, v.top⟩) ∧
    (∀ v, diagDirection r = .ok v → diagDirection t = .ok ⟨v.bottom, v.top⟩) ∧
    (∀ v, diagGravity r = .ok v → diagGravity t = .ok ⟨v.bottom, v.top⟩) := by
  obtain ⟨hb, hc⟩ := reflected_turned e si.wf sm.wf hr ht
  have sr := turned_sized si hr
  have st := turned_sized sm ht
  refine C17_mirror r t sr.wf st.wf sr.w sr.h ⟨hb, fun x y hy => ?_⟩
  by_cases hx : x < r.bounds.w
  · exact hc x y hx hy
  · rw [pix_none (by rw [hb]; omega), pix_none (by omega)]

/-- A crooked letter. -/
def crooked : Image := ⟨⟨5, 5⟩, [45, 45, 45, 120, 120,
                                 45, 45, 120, 120, 120,
                                 120, 45, 120, 120, 120,
                                 45, 45, 120, 45, 45,
                                 45, 45, 120, 120, 45]⟩
/-- It turned by 90 degrees. -/
def crooked90 : Image := ⟨⟨5, 5⟩, [120, 120, 120, 45, 45,
                                   120, 120, 120, 45, 120,
                                   45, 120, 120, 120, 120,
                                   45, 45, 45, 45, 45,
                                   45, 45, 120, 45, 45]⟩
/-- Upside down. -/
def crookedDown : Image := ⟨⟨5, 5⟩, [45, 120, 120, 45, 45,
                                     45, 45, 120, 45, 45,
                                     120, 120, 120, 45, 120,
                                     120, 120, 120, 45, 45,
                                     120, 120, 45, 45, 45]⟩
def crookedDown90 : Image := ⟨⟨5, 5⟩, [45, 45, 120, 45, 45,
                                       45, 45, 45, 45, 45,
                                       120, 120, 120, 120, 45,
                                       120, 45, 120, 120, 120,
                                       45, 45, 120, 120, 120]⟩
/-- In a mirror. -/
def crookedMirror : Image := ⟨⟨5, 5⟩, [120, 120, 45, 45, 45,
                                       120, 120, 120, 45, 45,
                                       120, 120, 120, 45, 120,
                                       45, 45, 120, 45, 45,
                                       45, 120, 120, 45, 45]⟩
def crookedMirror90 : Image := ⟨⟨5, 5⟩, [45, 45, 120, 45, 45,
                                         45, 45, 45, 45, 45,
                                         45, 120, 120, 120, 120,
                                         120, 120, 120, 45, 120,
                                         120, 120, 120, 45, 45]⟩

theorem crooked_rot : crooked.rotate90 = .ok crooked90 ∧ crookedDown.rotate90 = .ok crookedDown90 ∧
    crookedMirror.rotate90 = .ok crookedMirror90 := by decide +kernel

theorem five_sized {d : List Pixel} (h : d.length = 25) : Sized ⟨⟨5, 5⟩, d⟩ :=
  ⟨⟨by simpa using h, (by decide : 5 * 5 < W32), (by decide : 5 < W32), (by decide : 5 < W32)⟩, (by decide : 0 < 5),
    (by decide : 0 < 5), (by decide : 100 * (5 * 5) + 100 < 2147483648),
    (by decide : 25 * (5 * 5 * (5 + 5 + 2)) < 4294967296)⟩

theorem crooked_down : HalfTurn crooked crookedDown := by
  refine ⟨rfl, fun x y hx hy => ?_⟩
  have : ∀ x < 5, ∀ y < 5, pix crookedDown x y = pix crooked (5 - 1 - x) (5 - 1 - y) := by decide +kernel
  exact this x hx y hy

theorem crooked_mirror : Reflected crooked crookedMirror := by
  refine ⟨rfl, fun x y hx => ?_⟩
  by_cases hy : y < 5
  · have : ∀ x < 5, ∀ y < 5, pix crookedMirror x y = pix crooked (5 - 1 - x) y := by decide +kernel
    exact this x hx y hy
  · rw [pix_none (i := crookedMirror) (by show ¬ (x < 5 ∧ y < 5); omega),
      pix_none (i := crooked) (by show ¬ (5 - 1 - x < 5 ∧ y < 5); omega)]

theorem crooked_changes :
    (∀ s ∈ registered, s ∉ turnFree → feature s crookedDown crookedDown90 ≠ feature s crooked crooked90) ∧
    (∀ s ∈ registered, s ∉ mirrorFree → feature s crookedMirror crookedMirror90 ≠ feature s crooked crooked90) := by
  decide +kernel

/-- **C124**: of the 25 columns exactly these six never tell a letter from the letter upside down. -/
theorem C124_turn_exact (s : Feat × Policy) (hs : s ∈ registered) :
    s ∈ turnFree ↔ ∀ (i j r t : Image), HalfTurn i j → Sized i → Sized j → i.rotate90 = .ok r → j.rotate90 = .ok t →
      feature s j t = feature s i r := by
  refine ⟨fun h i j r t e si sj hr ht => C124_turn e si sj hr ht h, fun h => ?_⟩
  apply Classical.byContradiction
  intro hn
  exact crooked_changes.1 s hs hn (h _ _ _ _ crooked_down (five_sized rfl) (five_sized rfl) crooked_rot.1
    crooked_rot.2.1)

/-- **C124**: of the 25 columns exactly these twelve never tell a letter from its mirror image. -/
theorem C124_mirror_exact (s : Feat × Policy) (hs : s ∈ registered) :
    s ∈ mirrorFree ↔ ∀ (i m r t : Image), Reflected i m → Sized i → Sized m → i.rotate90 = .ok r → m.rotate90 = .ok t →
      feature s m t = feature s i r := by
  refine ⟨fun h i j r t e si sj hr ht => C124_mirror e si sj hr ht h, fun h => ?_⟩
  apply Classical.byContradiction
  intro hn
  exact crooked_changes.2 s hs hn (h _ _ _ _ crooked_mirror (five_sized rfl) (five_sized rfl) crooked_rot.1
    crooked_rot.2.2)

/-- The gravity of the letter above and below, upside down and in the mirror. -/
example : horizontalGravity crooked ≠ horizontalGravity crookedDown ∧
    horizontalGravity crooked = horizontalGravity crookedMirror ∧ dzdensityLoad crooked ≠ dzdensityLoad crookedMirror ∧
    dzdensityLoad crooked = dzdensityLoad crookedDown := by decide +kernel

end Ppocr.Props

import Verif.Spec.Turned
import Verif.Proofs.Enlarged
import Verif.Props.DzDensity

/-! # Lemmas on pictures in a mirror and upside down -/

namespace Ppocr
open Spec

/-- A row read backwards: the columns at least `a` from both sides hold as many letter pixels. -/
theorem rowMass_back {i m : Image} {y y' w : Nat} (h : ∀ x, x < w → letter m x y = letter i (w - 1 - x) y') (a : Nat) :
    rowMass m y a (w - a) = rowMass i y' a (w - a) := by
  unfold rowMass
  have e : ∀ f : Nat → Bool, (List.range' a (w - a - a)).countP f =
      (List.range (w - a - a)).countP fun x => f (a + x) := by
    intro f
    rw [List.range'_eq_map_range, List.countP_map]
    rfl
  rw [e, e, ← countP_rev]
  apply List.countP_congr
  intro x hx
  rw [List.mem_range] at hx
  rw [h _ (by omega), show w - 1 - (a + (w - a - a - 1 - x)) = a + x by omega]

theorem fullRow_back {i m : Image} {y y' : Nat} (hb : m.bounds = i.bounds) (hy : y < i.bounds.h ↔ y' < i.bounds.h)
    (h : ∀ x, x < i.bounds.w → letter m x y = letter i (i.bounds.w - 1 - x) y') : FullRow m y = FullRow i y' := by
  unfold FullRow
  rw [hb, decide_eq_decide.2 hy]
  congr 1
  rw [Bool.eq_iff_iff, List.all_eq_true, List.all_eq_true]
  constructor
  · intro a x hx
    have hx := List.mem_range.1 hx
    have := a (i.bounds.w - 1 - x) (List.mem_range.2 (by omega))
    rw [h _ (by omega), show i.bounds.w - 1 - (i.bounds.w - 1 - x) = x by omega] at this
    exact this
  · intro a x hx
    have hx := List.mem_range.1 hx
    rw [h _ hx]
    exact a _ (List.mem_range.2 (by omega))

/-- There are as many ends of blocks as beginnings. -/
theorem starts_ends (f : Nat → Bool) (n : Nat) :
    (List.range n).countP (fun y => f y && (y == 0 || !f (y - 1))) =
      (List.range n).countP (fun y => f y && !f (y + 1)) + (if 0 < n ∧ f (n - 1) = true ∧ f n = true then 1 else 0) := by
  induction n with
  | zero => simp
  | succ n ih =>
    rw [List.range_succ, List.countP_append, List.countP_append, ih]
    cases n with
    | zero => cases h0 : f 0 <;> cases h1 : f 1 <;> simp [h0, h1]
    | succ n =>
      simp only [Nat.add_sub_cancel, List.countP_singleton, Nat.zero_lt_succ, true_and]
      cases h0 : f n <;> cases h1 : f (n + 1) <;> cases h2 : f (n + 1 + 1) <;> simp

theorem fullRow_out {i : Image} {y : Nat} (h : i.bounds.h ≤ y) : FullRow i y = false := by
  unfold FullRow
  rw [decide_eq_false (by omega), Bool.false_and]

theorem fullBlocks_ends (i : Image) :
    fullBlocks i = (List.range i.bounds.h).countP fun y => FullRow i y && !FullRow i (y + 1) := by
  unfold fullBlocks
  rw [starts_ends, if_neg, Nat.add_zero]
  rw [fullRow_out (Nat.le_refl _)]
  simp

/-- The bars of a picture upside down. -/
theorem fullBlocks_down {i m : Image} (hb : m.bounds = i.bounds)
    (h : ∀ y, y < i.bounds.h → FullRow m y = FullRow i (i.bounds.h - 1 - y)) : fullBlocks m = fullBlocks i := by
  rw [fullBlocks_ends i, fullBlocks, hb, ← countP_rev]
  apply List.countP_congr
  intro y hy
  have hy := List.mem_range.1 hy
  rw [h _ (by omega), show i.bounds.h - 1 - (i.bounds.h - 1 - y) = y by omega]
  by_cases hl : y = i.bounds.h - 1
  · rw [fullRow_out (y := y + 1) (by omega)]
    simp [hl]
  · rw [h _ (by omega), show i.bounds.h - 1 - (i.bounds.h - 1 - y - 1) = y + 1 by omega]
    have : (i.bounds.h - 1 - y == 0) = false := by simp; omega
    rw [this, Bool.false_or]

theorem fullBlocks_same {i m : Image} (hb : m.bounds = i.bounds) (h : ∀ y, FullRow m y = FullRow i y) :
    fullBlocks m = fullBlocks i := by
  unfold fullBlocks
  rw [hb]
  simp only [h]

section
variable {i m : Image}

theorem Spec.Reflected.letters (e : Reflected i m) (x y : Nat) (hx : x < i.bounds.w) :
    letter m x y = letter i (i.bounds.w - 1 - x) y := by
  unfold letter
  rw [e.cells x y hx]

theorem Spec.HalfTurn.letters (e : HalfTurn i m) {x y : Nat} (hx : x < i.bounds.w) (hy : y < i.bounds.h) :
    letter m x y = letter i (i.bounds.w - 1 - x) (i.bounds.h - 1 - y) := by
  unfold letter
  rw [e.cells x y hx hy]

theorem mass_reflected (e : Reflected i m) : mass m = mass i := by
  unfold mass
  rw [e.bounds]
  exact sumTo_congr fun y _ => rowMass_back (fun x hx => e.letters x y hx) 0

theorem mass_turn (e : HalfTurn i m) : mass m = mass i := by
  unfold mass
  rw [e.bounds, sumTo_rev]
  refine sumTo_congr fun y hy => ?_
  have := rowMass_back (i := i) (m := m) (y := i.bounds.h - 1 - y) (y' := y) (w := i.bounds.w) (fun x hx => by
    rw [e.letters hx (by omega), show i.bounds.h - 1 - (i.bounds.h - 1 - y) = y by omega]) 0
  exact this

theorem masses_reflected (e : Reflected i m) (wt sp : Nat → Nat) :
    topMass m wt sp = topMass i wt sp ∧ bottomMass m wt sp = bottomMass i wt sp := by
  unfold topMass bottomMass
  rw [e.bounds]
  exact ⟨sumTo_congr fun k _ => by rw [rowMass_back fun x hx => e.letters x k hx],
    sumTo_congr fun k _ => by rw [rowMass_back fun x hx => e.letters x _ hx]⟩

theorem masses_turn (e : HalfTurn i m) (wt sp : Nat → Nat) :
    topMass m wt sp = bottomMass i wt sp ∧ bottomMass m wt sp = topMass i wt sp := by
  unfold topMass bottomMass
  rw [e.bounds]
  refine ⟨sumTo_congr fun k hk => ?_, sumTo_congr fun k hk => ?_⟩
  · rw [rowMass_back fun x hx => e.letters hx (by omega)]
  · rw [rowMass_back (y' := k) fun x hx => by
      rw [e.letters hx (by omega), show i.bounds.h - 1 - (i.bounds.h - 1 - k) = k by omega]]

theorem reflected_turned (e : Reflected i m) {r s : Image} (wi : i.WF) (wm : m.WF) (hr : i.rotate90 = .ok r)
    (hs : m.rotate90 = .ok s) : s.bounds = r.bounds ∧ ∀ x y, x < r.bounds.w → y < r.bounds.h →
      pix s x y = pix r x (r.bounds.h - 1 - y) := by
  obtain ⟨_, r1, r2, r3⟩ := Props.rot_pix wi hr
  obtain ⟨_, s1, s2, s3⟩ := Props.rot_pix wm hs
  have hb : s.bounds = r.bounds := by
    have a : s.bounds.w = r.bounds.w := by rw [s1, r1, e.bounds]
    have b : s.bounds.h = r.bounds.h := by rw [s2, r2, e.bounds]
    cases hx : s.bounds; cases hy : r.bounds
    rw [hx, hy] at a b
    cases a; cases b; rfl
  refine ⟨hb, fun x y hx hy => ?_⟩
  rw [r1] at hx
  rw [r2] at hy
  rw [s3 x y (by rw [e.bounds]; exact hx) (by rw [e.bounds]; exact hy), r2, r3 x _ hx (by omega), e.bounds,
    e.cells _ _ (by omega)]

theorem halfTurn_turned (e : HalfTurn i m) {r s : Image} (wi : i.WF) (wm : m.WF) (hr : i.rotate90 = .ok r)
    (hs : m.rotate90 = .ok s) : HalfTurn r s := by
  obtain ⟨_, r1, r2, r3⟩ := Props.rot_pix wi hr
  obtain ⟨_, s1, s2, s3⟩ := Props.rot_pix wm hs
  have hb : s.bounds = r.bounds := by
    have a : s.bounds.w = r.bounds.w := by rw [s1, r1, e.bounds]
    have b : s.bounds.h = r.bounds.h := by rw [s2, r2, e.bounds]
    cases hx : s.bounds; cases hy : r.bounds
    rw [hx, hy] at a b
    cases a; cases b; rfl
  refine ⟨hb, fun x y hx hy => ?_⟩
  rw [r1] at hx
  rw [r2] at hy
  rw [s3 x y (by rw [e.bounds]; exact hx) (by rw [e.bounds]; exact hy), r1, r2, r3 _ _ (by omega) (by omega), e.bounds,
    e.cells _ _ (by omega) (by omega)]

theorem fullBlocks_reflected (e : Reflected i m) : fullBlocks m = fullBlocks i :=
  fullBlocks_same e.bounds fun y => fullRow_back e.bounds Iff.rfl fun x hx => e.letters x y hx

theorem fullBlocks_turn (e : HalfTurn i m) : fullBlocks m = fullBlocks i :=
  fullBlocks_down e.bounds fun y hy => fullRow_back e.bounds ⟨fun _ => by omega, fun _ => hy⟩ fun _ hx =>
    e.letters hx hy

theorem fullBlocks_mirrored (hb : m.bounds = i.bounds)
    (h : ∀ x y, x < i.bounds.w → y < i.bounds.h → pix m x y = pix i x (i.bounds.h - 1 - y)) :
    fullBlocks m = fullBlocks i := by
  refine fullBlocks_down hb fun y hy => ?_
  unfold FullRow
  rw [hb, decide_eq_true hy, decide_eq_true (show i.bounds.h - 1 - y < i.bounds.h by omega)]
  congr 1
  rw [Bool.eq_iff_iff, List.all_eq_true, List.all_eq_true]
  have : ∀ x ∈ List.range i.bounds.w, letter m x y = letter i x (i.bounds.h - 1 - y) := by
    intro x hx
    unfold letter
    rw [h x y (List.mem_range.1 hx) hy]
  exact ⟨fun a x hx => this x hx ▸ a x hx, fun a x hx => (this x hx).symm ▸ a x hx⟩

end

end Ppocr

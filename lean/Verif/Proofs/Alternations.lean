import Verif.Proofs.Box
import Verif.Spec.Alternations

namespace Ppocr
open Spec

/-- The part `k .. n-1` of a strip. -/
def part (f : Nat → Bool) (k n : Nat) : List Bool := (List.range' k (n - k)).map f

theorem part_cons {f : Nat → Bool} {k n : Nat} (h : k < n) : part f k n = f k :: part f (k + 1) n := by
  unfold part
  rw [show n - k = (n - (k + 1)) + 1 by omega, List.range'_succ]
  rfl

theorem part_nil (f : Nat → Bool) (n : Nat) : part f n n = [] := by simp [part]

theorem changes_run (f : Nat → Bool) (n k' : Nat) (hk' : k' ≤ n) (m : Nat) :
    ∀ k, k + m + 1 = k' → (∀ j, k ≤ j → j < k' → f j = f k) →
    changes (part f k n) =
      if k' < n then (if f k = f k' then 0 else 1) + changes (part f k' n) else 0 := by
  induction m with
  | zero =>
    intro k hk hf
    rw [part_cons (by omega)]
    split
    · rename_i h
      rw [show k + 1 = k' by omega, part_cons h, changes]
    · rw [show k + 1 = n by omega, part_nil]
      rfl
  | succ m ih =>
    intro k hk hf
    have e1 : f (k + 1) = f k := hf (k + 1) (by omega) (by omega)
    rw [part_cons (by omega), part_cons (by omega), changes, if_pos e1.symm, Nat.zero_add,
      ← part_cons (by omega), ih (k + 1) (by omega) (fun j h1 h2 => by rw [hf j (by omega) h2, e1]), e1]

theorem skipSame_ok (get : Nat → Res Bool) (f : Nat → Bool) (b n : Nat) (x : Bool)
    (hg : ∀ k, k < n → get (b + k) = .ok (f k)) (fuel : Nat) : ∀ k, k ≤ n → n - k < fuel →
    ∃ k', skipSame get (b + n) x fuel (b + k) = .ok (b + k') ∧ k ≤ k' ∧ k' ≤ n ∧
      (∀ j, k ≤ j → j < k' → f j = x) ∧ (k' < n → f k' ≠ x) := by
  induction fuel with
  | zero => intro k _ h; omega
  | succ fuel ih =>
    intro k hk hf
    unfold skipSame
    by_cases h : k = n
    · rw [if_pos (by omega)]
      exact ⟨k, rfl, by omega, by omega, by intro j h1 h2; omega, by omega⟩
    · rw [if_neg (by omega), hg k (by omega)]
      simp only [Res.ok_bind]
      by_cases hx : f k = x
      · rw [if_pos hx]
        obtain ⟨k', h1, h2, h3, h4, h5⟩ := ih (k + 1) (by omega) (by omega)
        refine ⟨k', h1, by omega, h3, ?_, h5⟩
        intro j hj1 hj2
        by_cases hjk : j = k
        · rw [hjk, hx]
        · exact h4 j (by omega) hj2
      · rw [if_neg hx]
        exact ⟨k, rfl, by omega, by omega, by intro j h1 h2; omega, fun _ => hx⟩

theorem altLoop_ok (get : Nat → Res Bool) (f : Nat → Bool) (b n : Nat) (hn : n + 1 < W32)
    (hg : ∀ k, k < n → get (b + k) = .ok (f k)) (fuel : Nat) : ∀ k c, k < n → n - k < fuel →
    c ≤ k + 1 →
    altLoop get (b + n) fuel (b + k) c = .ok (c + changes (part f k n)) := by
  induction fuel with
  | zero => intro k c _ h; omega
  | succ fuel ih =>
    intro k c hk hf hc
    unfold altLoop
    rw [hg k hk]
    simp only [Res.ok_bind]
    obtain ⟨k', h1, h2, h3, h4, h5⟩ := skipSame_ok get f b n (f k) hg (b + n - (b + k) + 1) k
      (by omega) (by omega)
    have hlt : k < k' := by
      apply Classical.byContradiction
      intro hh
      have : k' = k := by omega
      subst this
      exact h5 hk rfl
    rw [h1]
    simp only [Res.ok_bind]
    have hr := changes_run f n k' h3 (k' - k - 1) k (by omega) h4
    by_cases he : k' = n
    · rw [if_pos (by omega), hr, if_neg (by omega)]
      rfl
    · have hne := h5 (by omega)
      rw [if_neg (by omega), uadd_eq (by omega), ih k' (c + 1) (by omega) (by omega) (by omega), hr,
        if_pos (by omega), if_neg (fun h => hne h.symm), Nat.add_assoc]

theorem anyPixelLoop_ok {i : Image} (wf : i.WF) {x : Nat} (hx : x < i.bounds.w) (n : Nat) :
    ∀ (y fuel : Nat), y + n ≤ i.bounds.h → n < fuel →
    anyPixelLoop i.data i.bounds.w ((y + n) * i.bounds.w + x) fuel (y * i.bounds.w + x) =
      .ok ((List.range' y n).any fun r => letter i x r) := by
  induction n with
  | zero =>
    intro y fuel _ hf
    obtain ⟨fuel, rfl⟩ : ∃ k, fuel = k + 1 := ⟨fuel - 1, by omega⟩
    unfold anyPixelLoop
    rw [Nat.add_zero, if_pos rfl]
    rfl
  | succ n ih =>
    intro y fuel hy hf
    obtain ⟨fuel, rfl⟩ : ∃ k, fuel = k + 1 := ⟨fuel - 1, by omega⟩
    unfold anyPixelLoop
    have hne : y * i.bounds.w + x ≠ (y + (n + 1)) * i.bounds.w + x := by
      rw [Nat.add_mul, Nat.add_mul, Nat.one_mul]; omega
    rw [if_neg hne, rd_pix wf hx (by omega)]
    simp only [Res.ok_bind]
    rw [isLetter_pixD wf hx (by omega), List.range'_succ, List.any_cons]
    cases hl : letter i x y
    · have := ih (y + 1) fuel (by omega) (by omega)
      rw [show y + 1 + n = y + (n + 1) by omega] at this
      rw [show y * i.bounds.w + x + i.bounds.w = (y + 1) * i.bounds.w + x by
        rw [Nat.add_mul]; omega]
      simpa using this
    · simp

theorem anyPixel_ok {i : Image} (wf : i.WF) {x y n : Nat} (hx : x < i.bounds.w)
    (hy : y + n ≤ i.bounds.h) : anyPixel i.data n i.bounds.w (y * i.bounds.w + x) =
      .ok ((List.range' y n).any fun r => letter i x r) := by
  have h1 : n * i.bounds.w ≤ i.bounds.h * i.bounds.w := Nat.mul_le_mul_right _ (by omega)
  have h2 := wf.small
  rw [Nat.mul_comm i.bounds.w] at h2
  unfold anyPixel
  rw [umul_eq (by omega)]
  have := anyPixelLoop_ok wf hx n y (n + 1) hy (by omega)
  rw [show y * i.bounds.w + x + n * i.bounds.w = (y + n) * i.bounds.w + x by
    rw [Nat.add_mul]; omega]
  exact this

theorem makeAlternations_ok {i : Image} (wf : i.WF) (hw : 0 < i.bounds.w) (hwl : i.bounds.w + 1 < W32)
    {y : Nat} (hy : y ≤ i.bounds.h) (get : Nat → Res Bool) (f : Nat → Bool)
    (hg : ∀ x, x < i.bounds.w → get (y * i.bounds.w + x) = .ok (f x)) :
    makeAlternations i y i.bounds.w get = .ok (runs ((List.range i.bounds.w).map f)) := by
  have h1 : y * i.bounds.w ≤ i.bounds.h * i.bounds.w := Nat.mul_le_mul_right _ hy
  have h2 := wf.small
  have h3 : i.bounds.w * i.bounds.h = i.bounds.h * i.bounds.w := Nat.mul_comm _ _
  have e : i.toSizeT 0 y = y * i.bounds.w := by
    unfold Image.toSizeT
    rw [umul_eq (by omega), uadd_eq (by omega), Nat.add_zero]
  unfold makeAlternations
  simp only [e, umul_eq h2]
  rw [decide_eq_true (by omega), assert_true]
  have h0 := hg 0 hw
  rw [Nat.add_zero] at h0
  have hl := altLoop_ok get f (y * i.bounds.w) i.bounds.w hwl hg (i.bounds.w + 1) 0 1 hw (by omega)
    (by omega)
  rw [Nat.add_zero (y * i.bounds.w)] at hl
  simp only [Res.ok_bind]
  rw [h0]
  simp only [Res.ok_bind]
  rw [hl]
  simp only [Res.ok_bind, Res.pure_eq]
  unfold runs
  have ep : part f 0 i.bounds.w = (List.range i.bounds.w).map f := by
    unfold part
    rw [List.range_eq_range', Nat.sub_zero]
  have ep2 := part_cons (f := f) hw
  rw [← ep]
  congr 2
  rw [ep2]
  rfl

theorem altRow_ok {i : Image} (wf : i.WF) (hw : 0 < i.bounds.w) (hwl : i.bounds.w + 1 < W32)
    {y : Nat} (hy : y < i.bounds.h) : altRow i y = .ok (runs (strip i y)) := by
  apply makeAlternations_ok wf hw hwl (by omega)
  intro x hx
  unfold normalPixel
  rw [rd_pix wf hx hy]
  simp only [Res.ok_bind, Res.pure_eq]
  rw [isLetter_pixD wf hx hy]

theorem altRows_ok {i : Image} (wf : i.WF) (hw : 0 < i.bounds.w) (hwl : i.bounds.w + 1 < W32)
    {y n : Nat} (hy : y + n ≤ i.bounds.h) : altRows i y n = .ok (runs (shadow i y n)) := by
  apply makeAlternations_ok wf hw hwl (by omega)
  intro x hx
  exact anyPixel_ok wf hx hy

end Ppocr

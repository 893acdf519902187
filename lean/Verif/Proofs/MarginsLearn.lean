import Verif.Proofs.Margins
import Verif.Model.Tools

/-! # Lemmas: margins around the lines that are learned -/

namespace Ppocr
open Spec

variable {left top : Nat} {i i' : Image}

theorem Spec.Margins.section_eq (m : Margins left top i i') (wf : i.WF) (wf' : i'.WF) (hw' : i'.bounds.w < W32)
    (hh' : i'.bounds.h < W32) {b : Box} (hw : 0 < b.w) (hh : 0 < b.h) (hx : b.x + b.w ≤ i.bounds.w)
    (hy : b.y + b.h ≤ i.bounds.h) : i'.section (b.x + left) (b.y + top) b.bounds = i.section b.x b.y b.bounds := by
  have h1 := m.wide
  have h2 := m.high
  unfold Image.section
  have ew : b.bounds.w = b.w := rfl
  have eh : b.bounds.h = b.h := rfl
  have a1 : i'.bounds.contains (b.x + left) (b.y + top) = true := by
    unfold Bounds.contains
    simp only [Bool.and_eq_true, decide_eq_true_eq]
    omega
  have a2 : i.bounds.contains b.x b.y = true := by
    unfold Bounds.contains
    simp only [Bool.and_eq_true, decide_eq_true_eq]
    omega
  have a3 : (decide (uadd b.bounds.w (b.x + left) ≤ i'.bounds.w) && decide (uadd b.bounds.h (b.y + top) ≤ i'.bounds.h)) = true := by
    rw [ew, eh, uadd_eq (by omega), uadd_eq (by omega)]
    simp only [Bool.and_eq_true, decide_eq_true_eq]
    omega
  have a4 : (decide (uadd b.bounds.w b.x ≤ i.bounds.w) && decide (uadd b.bounds.h b.y ≤ i.bounds.h)) = true := by
    rw [ew, eh, uadd_eq (by omega), uadd_eq (by omega)]
    simp only [Bool.and_eq_true, decide_eq_true_eq]
    omega
  rw [a1, a2, a3, a4, m.pixels wf wf' hw hh hx hy]

/-- One pass of the loop of `write_glyphs`, and the column the next one begins at. -/
theorem glyphStep_moved (m : Margins left top i i') (hr : i'.bounds.w = left + i.bounds.w ∨ BlankCol i (i.bounds.w - 1))
    (wf : i.WF) (wf' : i'.WF) (hp : 0 < i.bounds.h) (hh : RowsHeld i i') (hs : i.bounds.w * i.bounds.h + i.bounds.w ≤ W32)
    (hs' : i'.bounds.w * i'.bounds.h + i'.bounds.w ≤ W32) (font : List Nat) {x x' : Nat} (hx : x < i.bounds.w)
    (hx' : x' ≤ x + left) (hb : ∀ c, x' ≤ c → c < x + left → BlankCol i' c) (s : IS) :
    (∀ y s' t, glyphStep i font x s = .ok (some (y, s', t)) → x < y ∧ y < i.bounds.w ∧
      glyphStep i' font x' s = .ok (some (y + left, s', t))) ∧
    ((∀ v, glyphStep i font x s ≠ .ok (some v)) → glyphStep i' font x' s = glyphStep i font x s) := by
  have h1 := m.wide
  have h2 := m.high
  unfold glyphStep
  rcases m.nextBox hr wf wf' hp hh hs hs' hx hx' hb with ⟨b, e, ht, hc, e'⟩ | ⟨b, b', e, ht, e', ht'⟩ | ⟨e, e'⟩
  · have ht' : (movedBox left top b).truthy = true := ht
    have hp := hc.wpos
    have hl := hc.left
    have hn := hc.notLast
    have hbt := hc.bottom
    have h3 := Nat.mul_le_mul_right i'.bounds.h (show 2 ≤ i'.bounds.w by omega)
    have h4 := Nat.mul_le_mul_left i'.bounds.w (show 1 ≤ i'.bounds.h by omega)
    have es : i'.section (movedBox left top b).x (movedBox left top b).y (movedBox left top b).bounds =
        i.section b.x b.y b.bounds :=
      m.section_eq wf wf' (by omega) (by omega) hc.wpos hc.hpos hc.right hc.bottom
    have ex : uadd b.x b.w = b.x + b.w := uadd_eq (by omega)
    have ex' : uadd (movedBox left top b).x (movedBox left top b).w = b.x + b.w + left := by
      show uadd (b.x + left) b.w = _
      rw [uadd_eq (by omega)]
      omega
    rw [e, e', Res.ok_bind, Res.ok_bind, if_pos ht, if_pos ht', es, ex, ex']
    cases i.section b.x b.y b.bounds with
    | ok a =>
      rw [Res.ok_bind, Res.ok_bind]
      dsimp only
      by_cases hf : (s.str []).2.fail = true
      · rw [if_pos hf]
        refine ⟨fun y s' t h => ?_, fun _ => ?_⟩
        · cases h
        · rw [if_pos hf]
      · rw [if_neg hf, if_neg hf]
        cases glyphWrite ⟨a, [⟨(s.str []).1, font, maxU⟩]⟩ with
        | ok t =>
          refine ⟨fun y s' t' h => ?_, fun h => absurd rfl (h _)⟩
          cases h
          exact ⟨by omega, by omega, rfl⟩
        | _ => exact ⟨fun y s' t h => (by cases h), fun _ => rfl⟩
    | _ => exact ⟨fun y s' t h => (by cases h), fun _ => rfl⟩
  · have n : ¬ b.truthy = true := by rw [ht]; decide
    have n' : ¬ b'.truthy = true := by rw [ht']; decide
    rw [e, e', Res.ok_bind, Res.ok_bind, if_neg n, if_neg n']
    refine ⟨fun y s' t h => ?_, fun _ => rfl⟩
    by_cases hf : (s.str []).2.fail = true
    · rw [if_pos hf] at h
      cases h
    · rw [if_neg hf] at h
      cases h
  · rw [e, e']
    exact ⟨fun y s' t h => (by cases h), fun _ => rfl⟩

theorem glyphsOfLoop_moved (m : Margins left top i i') (hr : i'.bounds.w = left + i.bounds.w ∨ BlankCol i (i.bounds.w - 1))
    (wf : i.WF) (wf' : i'.WF) (hp : 0 < i.bounds.h) (hh : RowsHeld i i') (hs : i.bounds.w * i.bounds.h + i.bounds.w ≤ W32)
    (hs' : i'.bounds.w * i'.bounds.h + i'.bounds.w ≤ W32) (font : List Nat) :
    ∀ (fuel fuel' x x' : Nat) (s : IS) (out : List Nat), i.bounds.w < fuel + x → i'.bounds.w < fuel' + x' → x < i.bounds.w →
      x' ≤ x + left → (∀ c, x' ≤ c → c < x + left → BlankCol i' c) →
      glyphsOfLoop i' font fuel' x' s out = glyphsOfLoop i font fuel x s out := by
  intro fuel
  induction fuel with
  | zero => intro fuel' x x' s out h; omega
  | succ fuel ih =>
    intro fuel' x x' s out h1 h2 hx hx' hb
    have hwd := m.wide
    obtain ⟨f, rfl⟩ : ∃ f, fuel' = f + 1 := ⟨fuel' - 1, by omega⟩
    unfold glyphsOfLoop
    obtain ⟨k1, k2⟩ := glyphStep_moved m hr wf wf' hp hh hs hs' font hx hx' hb s
    cases e : glyphStep i font x s with
    | ok o =>
      cases o with
      | none =>
        rw [k2 (by rw [e]; intro v h; cases h), e]
      | some v =>
        obtain ⟨y, s', t⟩ := v
        obtain ⟨a1, a2, a3⟩ := k1 y s' t e
        rw [a3]
        exact ih f y (y + left) s' (out ++ t) (by omega) (by omega) a2 (by omega) (by intro c _ _; omega)
    | _ => rw [k2 (by rw [e]; intro v h; cases h), e]

end Ppocr

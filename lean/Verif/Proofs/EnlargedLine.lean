import Verif.Spec.EnlargedLine
import Verif.Proofs.Enlarged
import Verif.Proofs.Box
import Verif.Proofs.Margins

/-! # Lemmas on enlarged lines -/

namespace Ppocr
open Spec

section
variable {k : Nat} {i j : Image}

theorem blank_enlarged (e : Enlarged k i j) (c : Nat) : BlankCol j c ↔ BlankCol i (c / k) := by
  constructor
  · intro h y
    have := h (k * y)
    rw [e.cells, Nat.mul_div_cancel_left _ e.pos] at this
    exact this
  · intro h y
    rw [e.cells]
    exact h _

theorem not_blank_iff {i : Image} {c : Nat} : ¬ BlankCol i c ↔ ∃ y, letter i c y = true := by
  constructor
  · intro h
    apply Classical.byContradiction
    intro hn
    apply h
    intro y
    cases hl : letter i c y with
    | false => rfl
    | true => exact absurd ⟨y, hl⟩ hn
  · rintro ⟨y, hy⟩ h
    rw [h y] at hy
    cases hy

theorem letter_corner (e : Enlarged k i j) {x y a b : Nat} (ha : a < k) (hb : b < k) :
    letter j (k * x + a) (k * y + b) = letter i x y := by
  rw [e.cells, block_div ha, block_div hb]

/-- Two columns of one square. -/
theorem joined_within (e : Enlarged k i j) {c : Nat} (h : (c + 1) / k = c / k) (hb : ¬ BlankCol i (c / k)) :
    Joined j c := by
  obtain ⟨y, hy⟩ := not_blank_iff.mp hb
  refine ⟨k * y, k * y, ?_, ?_, by omega, by omega⟩
  · rw [e.cells, Nat.mul_div_cancel_left _ e.pos]
    exact hy
  · rw [e.cells, Nat.mul_div_cancel_left _ e.pos, h]
    exact hy

/-- Two columns of neighbouring squares. -/
theorem joined_across (e : Enlarged k i j) {c : Nat} (h : (c + 1) / k = c / k + 1) :
    Joined j c ↔ Joined i (c / k) := by
  have hk := e.pos
  constructor
  · rintro ⟨y, y', h1, h2, h3, h4⟩
    rw [e.cells] at h1 h2
    rw [h] at h2
    have g1 : y / k ≤ (y' + 1) / k := Nat.div_le_div_right h3
    have g2 : y' / k ≤ (y + 1) / k := Nat.div_le_div_right h4
    have := succ_div_cases k y
    have := succ_div_cases k y'
    exact ⟨y / k, y' / k, h1, h2, by omega, by omega⟩
  · rintro ⟨y, y', h1, h2, h3, h4⟩
    have cell : ∀ a b, a < k → b < k → k * y + a ≤ k * y' + b + 1 → k * y' + b ≤ k * y + a + 1 → Joined j c := by
      intro a b ha hb g1 g2
      refine ⟨k * y + a, k * y' + b, ?_, ?_, g1, g2⟩
      · rw [e.cells, block_div ha]
        exact h1
      · rw [e.cells, block_div hb, h]
        exact h2
    rcases Nat.lt_trichotomy y y' with h5 | h5 | h5
    · have : y' = y + 1 := by omega
      subst this
      apply cell (k - 1) 0 (by omega) (by omega) <;> rw [Nat.mul_succ] <;> omega
    · subst h5
      exact cell 0 0 hk hk (by omega) (by omega)
    · have : y = y' + 1 := by omega
      subst this
      apply cell 0 (k - 1) (by omega) (by omega) <;> rw [Nat.mul_succ] <;> omega

/-- No column of a box is blank. -/
theorem box_cols {i : Image} {x0 : Nat} {b : Box} (h : CharBox i x0 b) {c : Nat} (h1 : b.x ≤ c)
    (h2 : c < b.x + b.w) : ¬ BlankCol i c := by
  rcases Nat.lt_or_ge (c + 1) (b.x + b.w) with h3 | h3
  · exact joined_left (h.run c h1 h3)
  · rcases Nat.lt_or_ge b.x c with h4 | h4
    · have := h.run (c - 1) (by omega) (by omega)
      obtain ⟨y, y', _, g, _⟩ := this
      rw [Nat.sub_add_cancel (by omega)] at g
      exact not_blank_iff.mpr ⟨y', g⟩
    · obtain ⟨y, _, hy⟩ := h.tightLeft
      rw [show c = b.x by omega]
      exact not_blank_iff.mpr ⟨y, hy⟩

theorem mul_le_of_div {a c : Nat} (hk : 0 < k) (h : a ≤ c / k) : k * a ≤ c := by
  have := (Nat.le_div_iff_mul_le hk).mp h
  rw [Nat.mul_comm]
  exact this

theorem box_enlarged (e : Enlarged k i j) (hlast : BlankCol i (i.bounds.w - 1)) {x : Nat} {b b' : Box}
    (h : CharBox i x b) (h' : CharBox j (k * x) b') : b' = scaledBox k b := by
  have hk := e.pos
  have wp := h.wpos
  have wp' := h'.wpos
  have hp := h.hpos
  have hp' := h'.hpos
  -- the first column
  have hx : b'.x = k * b.x := by
    apply Nat.le_antisymm
    · apply Classical.byContradiction
      intro hn
      have h1 := h'.before (k * b.x) (Nat.mul_le_mul_left _ h.left) (by omega)
      rw [blank_enlarged e, Nat.mul_div_cancel_left _ hk] at h1
      exact box_cols h (Nat.le_refl _) (by omega) h1
    · apply mul_le_of_div hk
      apply Classical.byContradiction
      intro hn
      have h1 := h.before (b'.x / k)
        ((Nat.le_div_iff_mul_le hk).mpr (by rw [Nat.mul_comm]; exact h'.left)) (by omega)
      rw [← blank_enlarged e] at h1
      exact box_cols h' (Nat.le_refl _) (by omega) h1
  -- the column behind
  have hend : b'.x + b'.w = k * (b.x + b.w) := by
    have hn := h.notLast
    have hkE : k * (b.x + b.w) + k ≤ j.bounds.w := by
      rw [e.wide, ← Nat.mul_succ]
      exact Nat.mul_le_mul_left _ hn
    apply Nat.le_antisymm
    · apply Classical.byContradiction
      intro hgt
      have hE : 0 < k * (b.x + b.w) := Nat.mul_pos hk (by omega)
      have h1 := h'.run (k * (b.x + b.w) - 1)
        (by rw [hx]; have : k * b.x + k ≤ k * (b.x + b.w) := by
              rw [← Nat.mul_succ]; exact Nat.mul_le_mul_left _ (by omega)
            omega) (by omega)
      have h2 : (k * (b.x + b.w) - 1) / k = b.x + b.w - 1 := last_div hk (by omega)
      have h3 : (k * (b.x + b.w) - 1 + 1) / k = (k * (b.x + b.w) - 1) / k + 1 := by
        rw [h2, Nat.sub_add_cancel (by omega), Nat.mul_div_cancel_left _ hk]
        omega
      rw [joined_across e h3, h2] at h1
      rcases Nat.lt_or_ge (b.x + b.w + 1) i.bounds.w with h4 | h4
      · exact h.maximal h4 h1
      · obtain ⟨_, y', _, g, _⟩ := h1
        rw [Nat.sub_add_cancel (by omega)] at g
        have := hlast y'
        rw [show i.bounds.w - 1 = b.x + b.w by omega, g] at this
        cases this
    · apply Classical.byContradiction
      intro hlt
      have h1 := h'.maximal (by omega)
      have c1 : (b'.x + b'.w - 1) + 1 = b'.x + b'.w := by omega
      have c2 : b.x ≤ (b'.x + b'.w - 1) / k := by
        apply (Nat.le_div_iff_mul_le hk).mpr
        rw [Nat.mul_comm, ← hx]
        omega
      have c3 : (b'.x + b'.w) / k < b.x + b.w := (lt_mul_div hk).mpr (by omega)
      rcases succ_div_cases k (b'.x + b'.w - 1) with h2 | h2
      · apply h1
        apply joined_within e h2
        rw [c1] at h2
        exact box_cols h c2 (by omega)
      · apply h1
        rw [joined_across e h2]
        rw [c1] at h2
        exact h.run _ c2 (by omega)
  -- the first row
  have hy : b'.y = k * b.y := by
    apply Nat.le_antisymm
    · obtain ⟨c, hin, hl⟩ := h.tightTop
      have h1 := letter_corner e (x := c) (y := b.y) hk hk
      rw [Nat.add_zero, Nat.add_zero, hl] at h1
      have g1 : k * b.x ≤ k * c := Nat.mul_le_mul_left _ hin.1
      have g2 : k * c < k * (b.x + b.w) := Nat.mul_lt_mul_of_pos_left hin.2.1 hk
      exact (h'.covers (k * c) (k * b.y) (by omega) (by omega) h1).2.2.1
    · obtain ⟨c, hin, hl⟩ := h'.tightTop
      rw [e.cells] at hl
      apply mul_le_of_div hk
      have g1 : b.x ≤ c / k := (Nat.le_div_iff_mul_le hk).mpr (by rw [Nat.mul_comm, ← hx]; exact hin.1)
      have g2 : c / k < b.x + b.w := (lt_mul_div hk).mpr (by rw [← hend]; exact hin.2.1)
      exact (h.covers _ _ g1 g2 hl).2.2.1
  -- the row behind
  have hbot : b'.y + b'.h = k * (b.y + b.h) := by
    apply Nat.le_antisymm
    · obtain ⟨c, hin, hl⟩ := h'.tightBottom
      rw [e.cells] at hl
      have g1 : b.x ≤ c / k := (Nat.le_div_iff_mul_le hk).mpr (by rw [Nat.mul_comm, ← hx]; exact hin.1)
      have g2 : c / k < b.x + b.w := (lt_mul_div hk).mpr (by rw [← hend]; exact hin.2.1)
      have g3 := (h.covers _ _ g1 g2 hl).2.2.2
      have := (lt_mul_div hk).mp g3
      omega
    · obtain ⟨c, hin, hl⟩ := h.tightBottom
      have h1 := letter_corner e (x := c) (y := b.y + b.h - 1) hk (show k - 1 < k by omega)
      rw [Nat.add_zero, hl] at h1
      have g1 : k * b.x ≤ k * c := Nat.mul_le_mul_left _ hin.1
      have g2 : k * c < k * (b.x + b.w) := Nat.mul_lt_mul_of_pos_left hin.2.1 hk
      have g3 := (h'.covers (k * c) _ (by omega) (by omega) h1).2.2.2
      have g4 : k * (b.y + b.h) = k * (b.y + b.h - 1) + k := by
        rw [← Nat.mul_succ]; congr 1; omega
      omega
  rw [Nat.mul_add] at hend hbot
  obtain ⟨x', y', w', h''⟩ := b'
  simp only at hx hend hy hbot
  unfold scaledBox
  congr 1 <;> omega

theorem segmentFrom_enlarged (e : Enlarged k i j) (wi : i.WF) (wj : j.WF) (hh : 1 < i.bounds.h)
    (hsz : j.bounds.w * j.bounds.h + j.bounds.w ≤ W32) (hlast : BlankCol i (i.bounds.w - 1)) (fuel : Nat) :
    ∀ fuel' x, x < i.bounds.w → i.bounds.w - x < fuel → j.bounds.w - k * x < fuel' →
      segmentFrom j fuel' (k * x) = (segmentFrom i fuel x >>= fun bs => .ok (bs.map (scaledBox k))) := by
  have hk := e.pos
  have hhj : 1 < j.bounds.h := by
    rw [e.high]
    have := Nat.mul_le_mul hk hh
    omega
  have hle := Nat.mul_le_mul (show i.bounds.w ≤ j.bounds.w by rw [e.wide]; exact Nat.le_mul_of_pos_left _ hk)
    (show i.bounds.h ≤ j.bounds.h by rw [e.high]; exact Nat.le_mul_of_pos_left _ hk)
  have hwle : i.bounds.w ≤ j.bounds.w := by rw [e.wide]; exact Nat.le_mul_of_pos_left _ hk
  induction fuel with
  | zero => intro fuel' x _ h; omega
  | succ fuel ih =>
    intro fuel' x hx hf hf'
    have hkx : k * x < j.bounds.w := by rw [e.wide]; exact Nat.mul_lt_mul_of_pos_left hx hk
    obtain ⟨fuel', rfl⟩ : ∃ m, fuel' = m + 1 := ⟨fuel' - 1, by omega⟩
    have wli := wi.w_lt
    have wlj := wj.w_lt
    rw [segmentFrom, segmentFrom]
    rcases makeBox_ok wi hx (by omega) (by omega) with ⟨b, h1, h2, h3⟩ | ⟨b, h1, h2, h3, h4⟩ | ⟨_, h2, _⟩
    · rcases makeBox_ok wj hkx (by omega) hsz with ⟨b', g1, g2, g3⟩ | ⟨b', g1, g2, g3, g4⟩ | ⟨_, g2, _⟩
      · have hb := box_enlarged e hlast h3 g3
        have n1 := h3.notLast
        have n2 := g3.notLast
        have n3 := h3.wpos
        have n4 := h3.left
        have n5 : b'.x + b'.w = k * (b.x + b.w) := by rw [hb, Nat.mul_add]; rfl
        have n6 : k * x < k * (b.x + b.w) := Nat.mul_lt_mul_of_pos_left (by omega) hk
        rw [h1, g1]
        simp only [Res.ok_bind, h2, g2, if_true]
        rw [uadd_eq (by omega), uadd_eq (by omega), n5, ih fuel' (b.x + b.w) n1 (by omega) (by omega)]
        rw [Res.bind_assoc, Res.bind_assoc]
        refine res_bind_congr fun bs => ?_
        simp only [Res.ok_bind, Res.pure_eq, List.map_cons, hb]
      · exfalso
        have n1 := h3.notLast
        have n2 := h3.left
        have n3 := h3.wpos
        have n4 : k * b.x + k ≤ k * (i.bounds.w - 1) := by
          rw [← Nat.mul_succ]
          exact Nat.mul_le_mul_left _ (by omega)
        have n5 : k * i.bounds.w = k * (i.bounds.w - 1) + k := by
          rw [← Nat.mul_succ]; congr 1; omega
        have := g3 (k * b.x) (Nat.mul_le_mul_left _ n2) (by rw [e.wide]; omega)
        rw [blank_enlarged e, Nat.mul_div_cancel_left _ hk] at this
        exact box_cols h3 (Nat.le_refl _) (by omega) this
      · omega
    · rcases makeBox_ok wj hkx (by omega) hsz with ⟨b', g1, g2, g3⟩ | ⟨b', g1, g2, g3, g4⟩ | ⟨_, g2, _⟩
      · exfalso
        have n1 := g3.notLast
        have n3 := g3.wpos
        have n2 : x ≤ b'.x / k := (Nat.le_div_iff_mul_le hk).mpr (by rw [Nat.mul_comm]; exact g3.left)
        have n4 : b'.x / k < i.bounds.w := (lt_mul_div hk).mpr (by rw [← e.wide]; omega)
        apply box_cols g3 (Nat.le_refl _) (by omega)
        rw [blank_enlarged e]
        rcases Nat.lt_or_ge (b'.x / k + 1) i.bounds.w with h | h
        · exact h3 _ n2 h
        · rw [show b'.x / k = i.bounds.w - 1 by omega]
          exact hlast
      · rw [h1, g1]
        simp only [Res.ok_bind, h2, g2]
        rfl
      · omega
    · omega

theorem section_enlarged (e : Enlarged k i j) (wi : i.WF) (wj : j.WF) {x0 : Nat} {b : Box}
    (h : CharBox i x0 b) :
    ∃ a a', i.section b.x b.y b.bounds = .ok a ∧ a.bounds = b.bounds ∧
      j.section (scaledBox k b).x (scaledBox k b).y (scaledBox k b).bounds = .ok a' ∧ Enlarged k a a' := by
  have hk := e.pos
  have h1 := h.right
  have h2 := h.bottom
  have h3 := h.wpos
  have h4 := h.hpos
  obtain ⟨a, a1, _, a2, a3⟩ := Props.C01_section i wi b.x b.y b.bounds (by omega) (by omega) h1 h2
  have r1 : k * b.x + k * b.w ≤ j.bounds.w := by
    rw [e.wide, ← Nat.mul_add]; exact Nat.mul_le_mul_left _ h1
  have r2 : k * b.y + k * b.h ≤ j.bounds.h := by
    rw [e.high, ← Nat.mul_add]; exact Nat.mul_le_mul_left _ h2
  have r3 : 0 < k * b.w := Nat.mul_pos hk h3
  have r4 : 0 < k * b.h := Nat.mul_pos hk h4
  obtain ⟨a', a1', _, a2', a3'⟩ := Props.C01_section j wj (scaledBox k b).x (scaledBox k b).y
    (scaledBox k b).bounds (by simp only [scaledBox]; omega) (by simp only [scaledBox]; omega) r1 r2
  refine ⟨a, a', a1, a2, a1', hk, by rw [a2, a2']; rfl, by rw [a2, a2']; rfl, ?_⟩
  intro x y
  have aw : a.bounds.w = b.w := by rw [a2]; rfl
  have ah : a.bounds.h = b.h := by rw [a2]; rfl
  have aw' : a'.bounds.w = k * b.w := by rw [a2']; rfl
  have ah' : a'.bounds.h = k * b.h := by rw [a2']; rfl
  by_cases hxy : x < k * b.w ∧ y < k * b.h
  · have g1 : x / k < b.w := (lt_mul_div hk).mpr hxy.1
    have g2 : y / k < b.h := (lt_mul_div hk).mpr hxy.2
    have h5 := e.cells (k * b.x + x) (k * b.y + y)
    rw [Nat.mul_add_div hk, Nat.mul_add_div hk] at h5
    unfold letter at h5 ⊢
    rw [a3' x y hxy.1 hxy.2, a3 _ _ g1 g2]
    exact h5
  · have g : ¬ (x / k < a.bounds.w ∧ y / k < a.bounds.h) := by
      rw [aw, ah, lt_mul_div hk, lt_mul_div hk]
      exact hxy
    unfold letter
    rw [pix_none g, pix_none (by rw [aw', ah']; exact hxy)]

end
end Ppocr

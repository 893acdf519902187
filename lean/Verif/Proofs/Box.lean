import Verif.Proofs.Image
import Verif.Spec.Box

namespace Ppocr
open Spec


theorem rd_pix {i : Image} (wf : i.WF) {x y : Nat} (hx : x < i.bounds.w) (hy : y < i.bounds.h) :
    rd i.data (y * i.bounds.w + x) = .ok (pixD i x y) := rd_of_getElem? (pixD_eq wf hx hy)

theorem isLetter_pixD {i : Image} (wf : i.WF) {x y : Nat} (hx : x < i.bounds.w)
    (hy : y < i.bounds.h) : isLetter (pixD i x y) = letter i x y := by
  unfold letter isLetter
  rw [pix_pixD wf hx hy]
  simp

theorem letter_out {i : Image} {x y : Nat} (h : ¬ (x < i.bounds.w ∧ y < i.bounds.h)) :
    letter i x y = false := by
  simp [letter, pix_none h]

theorem letter_in {i : Image} {x y : Nat} (h : letter i x y = true) :
    x < i.bounds.w ∧ y < i.bounds.h := by
  by_cases hh : x < i.bounds.w ∧ y < i.bounds.h
  · exact hh
  · rw [letter_out hh] at h; simp at h

/-- Reading a letter flag through `rd`. -/
theorem rd_letter {i : Image} (wf : i.WF) {x y o : Nat} (hx : x < i.bounds.w) (hy : y < i.bounds.h)
    (ho : o = y * i.bounds.w + x) : ∃ p, rd i.data o = .ok p ∧ isLetter p = letter i x y :=
  ⟨_, by rw [ho, rd_pix wf hx hy], isLetter_pixD wf hx hy⟩

theorem horizontalEmpty_ok {i : Image} (wf : i.WF) {y : Nat} (hy : y < i.bounds.h) (n : Nat) :
    ∀ x, x + n ≤ i.bounds.w → horizontalEmpty i.data n (y * i.bounds.w + x) =
      .ok ((List.range' x n).all fun c => !letter i c y) := by
  induction n with
  | zero => intro x _; simp [horizontalEmpty]
  | succ n ih =>
    intro x hx
    obtain ⟨p, h1, h2⟩ := rd_letter wf (x := x) (by omega) hy rfl
    unfold horizontalEmpty
    rw [h1]
    simp only [Res.ok_bind, h2, List.range'_succ, List.all_cons]
    cases hl : letter i x y
    · simp only [Bool.false_eq_true, if_false, Bool.not_false, Bool.true_and]
      exact ih (x + 1) (by omega)
    · simp

theorem ne_end {w h x y : Nat} (hx : x < w) (hy : y < h) : y * w + x ≠ x + w * h := by
  intro e
  have := idx_lt (x := 0) (y := y) (w := w) (h := h) (by omega) hy
  omega

theorem verticalEmptyLoop_ok {i : Image} (wf : i.WF) {x : Nat} (hx : x < i.bounds.w) (n : Nat) :
    ∀ (y fuel : Nat), y + n = i.bounds.h → n < fuel →
      verticalEmptyLoop i.data i.bounds.w (x + i.bounds.w * i.bounds.h) fuel (y * i.bounds.w + x) =
      .ok ((List.range' y n).all fun r => !letter i x r) := by
  induction n with
  | zero =>
    intro y fuel hy hf
    obtain ⟨f, rfl⟩ : ∃ f, fuel = f + 1 := ⟨fuel - 1, by omega⟩
    have : y * i.bounds.w + x = x + i.bounds.w * i.bounds.h := by
      rw [Nat.mul_comm, show y = i.bounds.h by omega, Nat.add_comm]
    simp [verticalEmptyLoop, this]
  | succ n ih =>
    intro y fuel hy hf
    obtain ⟨f, rfl⟩ : ∃ f, fuel = f + 1 := ⟨fuel - 1, by omega⟩
    obtain ⟨p, h1, h2⟩ := rd_letter wf (x := x) (y := y) hx (by omega) rfl
    unfold verticalEmptyLoop
    rw [if_neg (ne_end hx (by omega)), h1]
    simp only [Res.ok_bind, h2, List.range'_succ, List.all_cons]
    cases hl : letter i x y
    · simp only [Bool.false_eq_true, if_false, Bool.not_false, Bool.true_and]
      rw [show y * i.bounds.w + x + i.bounds.w = (y + 1) * i.bounds.w + x by
        rw [Nat.add_mul]; omega]
      exact ih (y + 1) f (by omega) (by omega)
    · simp

theorem le_area {w h : Nat} (hw : 0 < w) : h ≤ w * h := Nat.le_mul_of_pos_left h hw

theorem verticalEmpty_ok {i : Image} (wf : i.WF) {x : Nat} (hx : x < i.bounds.w) :
    verticalEmpty i.data x i.bounds = .ok ((List.range i.bounds.h).all fun r => !letter i x r) := by
  unfold verticalEmpty
  rw [area_eq wf]
  have := verticalEmptyLoop_ok wf hx i.bounds.h 0 (i.bounds.w * i.bounds.h + 1) (by omega)
    (by have := le_area (h := i.bounds.h) (w := i.bounds.w) (by omega); omega)
  rw [Nat.zero_mul, Nat.zero_add] at this
  rw [this, List.range_eq_range']

/-- Pixel `(x, y)` is joined to the next column. -/
def joinAt (i : Image) (x y : Nat) : Bool :=
  letter i x y && (letter i (x + 1) y || (decide (0 < y) && letter i (x + 1) (y - 1)) ||
    letter i (x + 1) (y + 1))

theorem joinedRight_ok {i : Image} (wf : i.WF) {x y : Nat} (hx : x + 1 < i.bounds.w)
    (hy : y < i.bounds.h) :
    joinedRight i.data i.bounds.w (x + i.bounds.w * i.bounds.h) (y * i.bounds.w + x) =
      .ok (joinAt i x y) := by
  obtain ⟨p, h1, h2⟩ := rd_letter wf (x := x) (y := y) (by omega) hy rfl
  obtain ⟨p', h1', h2'⟩ := rd_letter wf (x := x + 1) (y := y) (by omega) hy rfl
  have hne : y * i.bounds.w + x + 1 ≠ x + i.bounds.w * i.bounds.h := by
    have := idx_lt (x := 1) (y := y) (w := i.bounds.w) (h := i.bounds.h) (by omega) hy
    omega
  unfold joinedRight joinAt
  rw [h1]
  simp only [Res.ok_bind, h2]
  cases hl : letter i x y
  · simp
  · simp only [if_true, Bool.true_and]
    unfold andLetter
    rw [show y * i.bounds.w + (x + 1) = y * i.bounds.w + x + 1 by omega] at h1'
    simp only [hne, ne_eq, not_false_eq_true, decide_true, if_true, h1', Res.ok_bind, h2', Res.pure_eq]
    cases hl1 : letter i (x + 1) y
    · simp only [Bool.false_eq_true, if_false, Bool.false_or]
      have hup : (if decide (i.bounds.w ≤ y * i.bounds.w + x + 1) = true then
            do let v ← rd i.data (y * i.bounds.w + x + 1 - i.bounds.w); Res.ok (isLetter v)
          else Res.ok false) = .ok (decide (0 < y) && letter i (x + 1) (y - 1)) := by
        by_cases h0 : 0 < y
        · have e : y * i.bounds.w = (y - 1) * i.bounds.w + i.bounds.w := by
            conv => { lhs; rw [show y = (y - 1) + 1 by omega, Nat.add_mul] }
            omega
          obtain ⟨q, g1, g2⟩ := rd_letter wf (x := x + 1) (y := y - 1)
            (o := y * i.bounds.w + x + 1 - i.bounds.w) (by omega) (by omega) (by omega)
          rw [g1]
          simp [h0, g2, e]
          intro hlt
          omega
        · have : y = 0 := by omega
          subst this
          have hn : ¬ i.bounds.w ≤ x + 1 := by omega
          simp [hn]
      rw [hup]
      simp only [Res.ok_bind]
      cases hl2 : (decide (0 < y) && letter i (x + 1) (y - 1))
      · simp only [Bool.false_eq_true, if_false, Bool.false_or]
        by_cases hd : y + 1 < i.bounds.h
        · obtain ⟨q, g1, g2⟩ := rd_letter wf (x := x + 1) (y := y + 1)
            (o := y * i.bounds.w + x + i.bounds.w + 1) (by omega) hd (by rw [Nat.add_mul]; omega)
          rw [g1]
          have hlt := idx_lt (x := 1) (y := y + 1) (w := i.bounds.w) (h := i.bounds.h) (by omega) hd
          rw [Nat.add_mul] at hlt
          rw [if_pos (by simp; omega)]
          simp [g2]
        · have e : i.bounds.w * i.bounds.h = y * i.bounds.w + i.bounds.w := by
            rw [Nat.mul_comm, show i.bounds.h = y + 1 by omega, Nat.add_mul]; omega
          rw [if_neg (by simp; omega), letter_out (by omega)]
      · simp
    · simp

theorem columnCutLoop_ok {i : Image} (wf : i.WF) {x : Nat} (hx : x + 1 < i.bounds.w) (n : Nat) :
    ∀ (y fuel : Nat), y + n = i.bounds.h → n < fuel →
      columnCutLoop i.data i.bounds.w (x + i.bounds.w * i.bounds.h) fuel (y * i.bounds.w + x) =
      .ok ((List.range' y n).all fun r => !joinAt i x r) := by
  induction n with
  | zero =>
    intro y fuel hy hf
    obtain ⟨f, rfl⟩ : ∃ f, fuel = f + 1 := ⟨fuel - 1, by omega⟩
    have : y * i.bounds.w + x = x + i.bounds.w * i.bounds.h := by
      rw [Nat.mul_comm, show y = i.bounds.h by omega, Nat.add_comm]
    simp [columnCutLoop, this]
  | succ n ih =>
    intro y fuel hy hf
    obtain ⟨f, rfl⟩ : ∃ f, fuel = f + 1 := ⟨fuel - 1, by omega⟩
    unfold columnCutLoop
    rw [if_neg (ne_end (by omega) (by omega)), joinedRight_ok wf hx (by omega)]
    simp only [Res.ok_bind, List.range'_succ, List.all_cons]
    cases hl : joinAt i x y
    · simp only [Bool.false_eq_true, if_false, Bool.not_false, Bool.true_and]
      rw [show y * i.bounds.w + x + i.bounds.w = (y + 1) * i.bounds.w + x by
        rw [Nat.add_mul]; omega]
      exact ih (y + 1) f (by omega) (by omega)
    · simp

theorem columnCut_ok {i : Image} (wf : i.WF) {x : Nat} (hx : x + 1 < i.bounds.w) :
    columnCut i.data x i.bounds.w i.bounds.h =
      .ok ((List.range i.bounds.h).all fun r => !joinAt i x r) := by
  unfold columnCut
  rw [umul_eq wf.small]
  have := columnCutLoop_ok wf hx i.bounds.h 0 (i.bounds.w * i.bounds.h + 1) (by omega)
    (by have := le_area (h := i.bounds.h) (w := i.bounds.w) (by omega); omega)
  rw [Nat.zero_mul, Nat.zero_add] at this
  rw [this, List.range_eq_range']

theorem blank_iff {i : Image} {x : Nat} :
    ((List.range i.bounds.h).all fun r => !letter i x r) = true ↔ BlankCol i x := by
  simp only [List.all_eq_true, List.mem_range, Bool.not_eq_true', BlankCol]
  constructor
  · intro h y
    by_cases hy : y < i.bounds.h
    · exact h y hy
    · exact letter_out (by omega)
  · intro h y _; exact h y

theorem cut_iff {i : Image} {x : Nat} :
    ((List.range i.bounds.h).all fun r => !joinAt i x r) = true ↔ ¬ Joined i x := by
  simp only [List.all_eq_true, List.mem_range, Bool.not_eq_true']
  constructor
  · rintro h ⟨y, y', h1, h2, h3, h4⟩
    have := h y (letter_in h1).2
    have hc : y' = y ∨ y' + 1 = y ∨ y' = y + 1 := by omega
    simp only [joinAt, h1, Bool.true_and, Bool.or_eq_false_iff, Bool.and_eq_false_iff] at this
    obtain ⟨⟨a, b⟩, c⟩ := this
    rcases hc with rfl | rfl | rfl
    · rw [h2] at a; simp at a
    · simp at b; rw [h2] at b; simp at b
    · rw [h2] at c; simp at c
  · intro h y _
    cases hj : joinAt i x y with
    | false => rfl
    | true =>
      exfalso
      apply h
      simp only [joinAt, Bool.and_eq_true, Bool.or_eq_true, decide_eq_true_eq] at hj
      obtain ⟨h1, (h2 | ⟨h0, h2⟩) | h2⟩ := hj
      · exact ⟨y, y, h1, h2, by omega, by omega⟩
      · exact ⟨y, y - 1, h1, h2, by omega, by omega⟩
      · exact ⟨y, y + 1, h1, h2, by omega, by omega⟩

theorem skipBlankCols_ok {i : Image} (wf : i.WF) (fuel : Nat) : ∀ x0, x0 ≤ i.bounds.w →
    i.bounds.w - x0 < fuel →
    ∃ x, skipBlankCols i.data i.bounds fuel x0 x0 = .ok (x, x) ∧ x0 ≤ x ∧ x ≤ i.bounds.w ∧
      (∀ c, x0 ≤ c → c < x → BlankCol i c) ∧ (x < i.bounds.w → ¬ BlankCol i x) := by
  induction fuel with
  | zero => intro x0 _ h; omega
  | succ fuel ih =>
    intro x0 h1 h2
    unfold skipBlankCols
    by_cases hx : x0 < i.bounds.w
    · rw [if_pos hx, verticalEmpty_ok wf hx]
      simp only [Res.ok_bind]
      cases hb : ((List.range i.bounds.h).all fun r => !letter i x0 r)
      · refine ⟨x0, by simp, by omega, by omega, by omega, ?_⟩
        intro _ hbl
        rw [blank_iff.2 hbl] at hb
        simp at hb
      · obtain ⟨x, g1, g2, g3, g4, g5⟩ := ih (x0 + 1) (by omega) (by omega)
        refine ⟨x, by simpa using g1, by omega, g3, ?_, g5⟩
        intro c hc1 hc2
        by_cases hc : c = x0
        · subst hc; exact blank_iff.1 hb
        · exact g4 c (by omega) hc2
    · rw [if_neg hx]
      exact ⟨x0, rfl, by omega, h1, by omega, by omega⟩

theorem extendCols_ok {i : Image} (wf : i.WF) (hsz : i.bounds.w + 1 < W32) (fuel : Nat) : ∀ w, w ≤ i.bounds.w →
    i.bounds.w - w < fuel →
    ∃ w', extendCols i.data i.bounds fuel w w = .ok w' ∧
      (i.bounds.w ≤ w + 1 → w' = w) ∧
      (w + 1 < i.bounds.w → w + 1 ≤ w' ∧ w' < i.bounds.w ∧
        (∀ c, w ≤ c → c + 1 < w' → Joined i c) ∧
        (w' + 1 < i.bounds.w → ¬ Joined i (w' - 1))) := by
  have hwl := wf.w_lt
  induction fuel with
  | zero => intro w _ h; omega
  | succ fuel ih =>
    intro w h1 h2
    unfold extendCols
    · rw [uadd_eq (by omega)]
      by_cases hw : w + 1 < i.bounds.w
      · rw [if_pos hw, columnCut_ok wf hw]
        simp only [Res.ok_bind]
        cases hb : ((List.range i.bounds.h).all fun r => !joinAt i w r)
        · have hj : Joined i w := by
            apply Classical.byContradiction
            intro hn
            rw [cut_iff.2 hn] at hb
            simp at hb
          obtain ⟨w', g1, g2, g3⟩ := ih (w + 1) (by omega) (by omega)
          refine ⟨w', by simpa using g1, by omega, fun _ => ?_⟩
          by_cases hlast : i.bounds.w ≤ w + 1 + 1
          · have := g2 hlast
            subst this
            refine ⟨by omega, by omega, ?_, by omega⟩
            intro c hc1 hc2; omega
          · obtain ⟨k1, k2, k3, k4⟩ := g3 (by omega)
            refine ⟨by omega, k2, ?_, k4⟩
            intro c hc1 hc2
            by_cases hc : c = w
            · subst hc; exact hj
            · exact k3 c (by omega) hc2
        · refine ⟨w + 1, by simp, by omega, fun _ => ⟨by omega, by omega, ?_, ?_⟩⟩
          · intro c hc1 hc2; omega
          · intro _; simpa using cut_iff.1 hb
      · rw [if_neg hw]
        exact ⟨w, rfl, fun _ => rfl, fun h => absurd h hw⟩

/-- No letter in columns `x .. x+w-1` of row `y`. -/
def BlankSeg (i : Image) (x w y : Nat) : Prop := ∀ c, x ≤ c → c < x + w → letter i c y = false

theorem seg_iff {i : Image} {x w y : Nat} :
    ((List.range' x w).all fun c => !letter i c y) = true ↔ BlankSeg i x w y := by
  simp only [List.all_eq_true, List.mem_range'_1, Bool.not_eq_true', BlankSeg]
  constructor
  · intro h c h1 h2; exact h c ⟨h1, h2⟩
  · intro h c hc; exact h c hc.1 hc.2

theorem skipBlankRows_ok {i : Image} (wf : i.WF) {x w : Nat} (hxw : x + w ≤ i.bounds.w) (fuel : Nat) :
    ∀ y0, y0 ≤ i.bounds.h → i.bounds.h - y0 < fuel →
    ∃ y, skipBlankRows i.data i.bounds w fuel y0 (y0 * i.bounds.w + x) = .ok y ∧ y0 ≤ y ∧
      y ≤ i.bounds.h ∧ (∀ r, y0 ≤ r → r < y → BlankSeg i x w r) ∧
      (y < i.bounds.h → ¬ BlankSeg i x w y) := by
  induction fuel with
  | zero => intro y0 _ h; omega
  | succ fuel ih =>
    intro y0 h1 h2
    unfold skipBlankRows
    by_cases hy : y0 < i.bounds.h
    · rw [if_pos hy, horizontalEmpty_ok wf hy w x hxw]
      simp only [Res.ok_bind]
      cases hb : ((List.range' x w).all fun c => !letter i c y0)
      · refine ⟨y0, by simp, by omega, by omega, by omega, ?_⟩
        intro _ hbl
        rw [seg_iff.2 hbl] at hb
        simp at hb
      · obtain ⟨y, g1, g2, g3, g4, g5⟩ := ih (y0 + 1) (by omega) (by omega)
        rw [show (y0 + 1) * i.bounds.w + x = y0 * i.bounds.w + x + i.bounds.w by
          rw [Nat.add_mul]; omega] at g1
        refine ⟨y, by simpa using g1, by omega, g3, ?_, g5⟩
        intro r hr1 hr2
        by_cases hr : r = y0
        · subst hr; exact seg_iff.1 hb
        · exact g4 r (by omega) hr2
    · rw [if_neg hy]
      exact ⟨y0, rfl, by omega, h1, by omega, by omega⟩

theorem skipBottomRows_ok {i : Image} (wf : i.WF) {x w y : Nat} (hxw : x + w ≤ i.bounds.w)
    (hy : ¬ BlankSeg i x w y) (fuel : Nat) :
    ∀ h, y < h → h ≤ i.bounds.h → h < fuel →
    ∃ h', skipBottomRows i.data i.bounds w y fuel h (h * i.bounds.w + x) = .ok h' ∧ y ≤ h' ∧
      h' < h ∧ (∀ r, h' < r → r < h → BlankSeg i x w r) ∧ ¬ BlankSeg i x w h' := by
  have hhl := wf.h_lt
  induction fuel with
  | zero => intro h _ _ h'; omega
  | succ fuel ih =>
    intro h h1 h2 h3
    unfold skipBottomRows
    rw [usub_eq (by omega) (by omega)]
    simp only
    have e : h * i.bounds.w + x = (h - 1) * i.bounds.w + x + i.bounds.w := by
      conv => { lhs; rw [show h = (h - 1) + 1 by omega, Nat.add_mul] }
      omega
    by_cases hh : y < h - 1
    · rw [if_pos hh, if_neg (by omega)]
      rw [show h * i.bounds.w + x - i.bounds.w = (h - 1) * i.bounds.w + x by omega]
      rw [horizontalEmpty_ok wf (by omega) w x hxw]
      simp only [Res.ok_bind]
      cases hb : ((List.range' x w).all fun c => !letter i c (h - 1))
      · refine ⟨h - 1, by simp, by omega, by omega, by omega, ?_⟩
        intro hbl
        rw [seg_iff.2 hbl] at hb
        simp at hb
      · obtain ⟨h', g1, g2, g3, g4, g5⟩ := ih (h - 1) (by omega) (by omega) (by omega)
        refine ⟨h', by simpa using g1, g2, by omega, ?_, g5⟩
        intro r hr1 hr2
        by_cases hr : r = h - 1
        · subst hr; exact seg_iff.1 hb
        · exact g4 r hr1 (by omega)
    · rw [if_neg hh]
      have : h - 1 = y := by omega
      refine ⟨h - 1, rfl, by omega, by omega, by omega, ?_⟩
      rw [this]; exact hy

theorem not_blank {i : Image} {x : Nat} (h : ¬ BlankCol i x) : ∃ y, letter i x y = true := by
  apply Classical.byContradiction
  intro hn
  apply h
  intro y
  cases hl : letter i x y with
  | false => rfl
  | true => exact absurd ⟨y, hl⟩ hn

theorem not_blankSeg {i : Image} {x w y : Nat} (h : ¬ BlankSeg i x w y) :
    ∃ c, x ≤ c ∧ c < x + w ∧ letter i c y = true := by
  apply Classical.byContradiction
  intro hn
  apply h
  intro c h1 h2
  cases hl : letter i c y with
  | false => rfl
  | true => exact absurd ⟨c, h1, h2, hl⟩ hn

/-- Blank segment test is vacuous for a zero width. -/
theorem skipBlankRows_zero (data : List Pixel) (b : Bounds) (fuel : Nat) :
    ∀ y d, y ≤ b.h → b.h - y < fuel → skipBlankRows data b 0 fuel y d = .ok b.h := by
  induction fuel with
  | zero => intro y d _ h; omega
  | succ fuel ih =>
    intro y d h1 h2
    unfold skipBlankRows
    by_cases hy : y < b.h
    · rw [if_pos hy]
      simp only [horizontalEmpty, Res.ok_bind, if_true]
      exact ih _ _ (by omega) (by omega)
    · rw [if_neg hy, show y = b.h by omega]

/-- First half of `make_box_character`: the columns of the box. -/
theorem makeBox_cols {i : Image} (wf : i.WF) {x0 : Nat} (hx : x0 < i.bounds.w) (hh : 0 < i.bounds.h)
    (hsz : i.bounds.w + 1 < W32) : ∃ x w, x0 ≤ x ∧ x ≤ i.bounds.w ∧ (∀ c, x0 ≤ c → c < x → BlankCol i c) ∧
      (x < i.bounds.w → ¬ BlankCol i x) ∧
      (i.bounds.w ≤ x + 1 → w = 0) ∧
      (x + 1 < i.bounds.w → 0 < w ∧ x + w < i.bounds.w ∧ (∀ c, x ≤ c → c + 1 < x + w → Joined i c) ∧
        (x + w + 1 < i.bounds.w → ¬ Joined i (x + w - 1))) ∧
      makeBox i x0 0 i.bounds = boxRows i 0 i.bounds x w := by
  have hwl := wf.w_lt
  obtain ⟨x, a1, a2, a3, a4, a5⟩ := skipBlankCols_ok wf (i.bounds.w + 1) x0 (by omega) (by omega)
  obtain ⟨w', b1, b2, b3⟩ := extendCols_ok wf hsz (i.bounds.w + 1) x a3 (by omega)
  have hw' : x ≤ w' ∧ w' < W32 := by
    by_cases hc : x + 1 < i.bounds.w
    · have := b3 hc; omega
    · have := b2 (by omega); omega
  refine ⟨x, w' - x, a2, a3, a4, a5, ?_, ?_, ?_⟩
  · intro h; have := b2 h; omega
  · intro h
    obtain ⟨k1, k2, k3, k4⟩ := b3 h
    rw [show x + (w' - x) = w' by omega]
    exact ⟨by omega, k2, k3, k4⟩
  · have hd : i.dataAt x0 0 = .ok x0 := by
      have := dataAt_eq wf (x := x0) (y := 0) hx hh
      simpa using this
    have hu := usub_eq hw'.2 hw'.1
    rw [← hu]
    unfold makeBox
    rw [hd]
    simp only [Res.ok_bind]
    rw [a1]
    simp only [Res.ok_bind]
    have hk : ∀ (r : Res Nat) (f : Nat → Res Box), r = Res.ok w' → (r >>= f) = f w' := by
      intro r f h; subst h; rfl
    exact hk _ _ b1

theorem dataAt_row {i : Image} (wf : i.WF) {x : Nat} (hx : x ≤ i.bounds.w) (hh : 1 < i.bounds.h)
    (hw : 0 < i.bounds.w) : i.dataAt x 0 = .ok x := by
  have hwl := wf.w_lt
  have : i.bounds.w * 2 ≤ i.bounds.w * i.bounds.h := Nat.mul_le_mul_left _ (by omega)
  unfold Image.dataAt Image.toSizeT
  rw [umul_eq wf.small, umul_eq (by simp [W32_pos]), uadd_eq (by omega)]
  simp only [Nat.zero_mul, Nat.zero_add]
  rw [decide_eq_true (show x < i.bounds.w * i.bounds.h by omega)]
  rfl

theorem dataAt_abort {i : Image} (wf : i.WF) (hh : i.bounds.h = 1) : i.dataAt i.bounds.w 0 = .abort := by
  have hwl := wf.w_lt
  have hs := wf.small
  unfold Image.dataAt Image.toSizeT
  rw [umul_eq wf.small, umul_eq (by simp [W32_pos]), uadd_eq (by omega), hh]
  simp

/-- A box of zero width: the rows found do not matter. -/
theorem boxRows_zero {i : Image} (wf : i.WF) {x : Nat} (hh : 0 < i.bounds.h)
    (hd : i.dataAt x 0 = .ok x) :
    ∃ b, boxRows i 0 i.bounds x 0 = .ok b ∧ b.x = x ∧ b.w = 0 := by
  have hhl := wf.h_lt
  unfold boxRows
  rw [hd]
  simp only [Res.ok_bind]
  rw [skipBlankRows_zero _ _ _ _ _ (by omega) (by omega)]
  simp only [Res.ok_bind]
  have : ∀ d, skipBottomRows i.data i.bounds 0 i.bounds.h (i.bounds.h + 1) i.bounds.h d =
      .ok (usub i.bounds.h 1) := by
    intro d
    unfold skipBottomRows
    simp only
    rw [usub_eq hhl (by omega), if_neg (by omega)]
  rw [this]
  exact ⟨_, rfl, rfl, rfl⟩

/-- The rows of a non-empty box. -/
theorem boxRows_ok {i : Image} (wf : i.WF) {x w : Nat} (hw : 0 < w) (hxw : x + w ≤ i.bounds.w)
    (hsz : i.bounds.w * i.bounds.h + i.bounds.w ≤ W32) {r : Nat} (hr : letter i x r = true) :
    ∃ y h, boxRows i 0 i.bounds x w = .ok ⟨x, y, w, h⟩ ∧ 0 < h ∧ y + h ≤ i.bounds.h ∧
      (∀ k, k < y → BlankSeg i x w k) ∧ ¬ BlankSeg i x w y ∧
      (∀ k, y + h ≤ k → k < i.bounds.h → BlankSeg i x w k) ∧ ¬ BlankSeg i x w (y + h - 1) := by
  have hhl := wf.h_lt
  have hs := wf.small
  have hr' := (letter_in hr).2
  have hd : i.dataAt x 0 = .ok x := by
    have := dataAt_eq wf (x := x) (y := 0) (by omega) (by omega)
    simpa using this
  obtain ⟨y, a1, a2, a3, a4, a5⟩ :=
    skipBlankRows_ok wf hxw (i.bounds.h + 1) 0 (by omega) (by omega)
  have hy : y < i.bounds.h := by
    apply Decidable.byContradiction
    intro hn
    have := a4 r (by omega) (by omega) x (by omega) (by omega)
    rw [hr] at this; simp at this
  have hyb := a5 hy
  obtain ⟨h', b1, b2, b3, b4, b5⟩ :=
    skipBottomRows_ok wf hxw hyb (i.bounds.h + 1) i.bounds.h hy (by omega) (by omega)
  have ht : i.toSizeT x i.bounds.h = i.bounds.h * i.bounds.w + x := by
    unfold Image.toSizeT
    rw [Nat.mul_comm] at hs
    rw [umul_eq hs, uadd_eq]
    rw [Nat.mul_comm]; omega
  refine ⟨y, h' - y + 1, ?_, by omega, by omega, ?_, hyb, ?_, ?_⟩
  · rw [Nat.zero_mul, Nat.zero_add] at a1
    unfold boxRows
    rw [hd]
    simp only [Res.ok_bind, a1, ht, b1, Res.pure_eq]
    rw [usub_eq (by omega) b2, uadd_eq (by omega)]
  · intro k hk; exact a4 k (by omega) hk
  · intro k h1 h2; exact b4 k (by omega) h2
  · rw [show y + (h' - y + 1) - 1 = h' by omega]; exact b5

/-- `make_box_character` on an image with at least two rows, or with a letter further on. -/
theorem makeBox_ok {i : Image} (wf : i.WF) {x0 : Nat} (hx : x0 < i.bounds.w) (hh : 0 < i.bounds.h)
    (hsz : i.bounds.w * i.bounds.h + i.bounds.w ≤ W32) :
    (∃ b, makeBox i x0 0 i.bounds = .ok b ∧ b.truthy = true ∧ CharBox i x0 b) ∨
    (∃ b, makeBox i x0 0 i.bounds = .ok b ∧ b.truthy = false ∧
      (∀ c, x0 ≤ c → c + 1 < i.bounds.w → BlankCol i c) ∧
      (1 < i.bounds.h ∨ ¬ BlankCol i (i.bounds.w - 1))) ∨
    (makeBox i x0 0 i.bounds = .abort ∧ i.bounds.h = 1 ∧
      ∀ c, x0 ≤ c → c < i.bounds.w → BlankCol i c) := by
  have hwl := wf.w_lt
  have hsz1 : i.bounds.w + 1 < W32 := by
    have : i.bounds.w * 1 ≤ i.bounds.w * i.bounds.h := Nat.mul_le_mul_left _ (by omega)
    have : 4 ≤ W32 := by decide
    omega
  obtain ⟨x, w, c1, c2, c3, c4, c5, c6, c7⟩ := makeBox_cols wf hx hh hsz1
  by_cases hx1 : x + 1 < i.bounds.w
  · left
    obtain ⟨d1, d2, d3, d4⟩ := c6 hx1
    obtain ⟨r, hr⟩ := not_blank (c4 (by omega))
    obtain ⟨y, h, e1, e2, e3, e4, e5, e6, e7⟩ := boxRows_ok wf d1 (by omega) hsz hr
    have inrow : ∀ c k, x ≤ c → c < x + w → letter i c k = true → y ≤ k ∧ k < y + h := by
      intro c k hc1 hc2 hl
      constructor
      · apply Decidable.byContradiction
        intro hn
        have := e4 k (by omega) c hc1 hc2
        rw [hl] at this; simp at this
      · apply Decidable.byContradiction
        intro hn
        have := e6 k (by omega) (letter_in hl).2 c hc1 hc2
        rw [hl] at this; simp at this
    obtain ⟨ct, t1, t2, t3⟩ := not_blankSeg e5
    obtain ⟨cb, u1, u2, u3⟩ := not_blankSeg e7
    refine ⟨_, c7.trans e1, ?_, ⟨d1, e2, c1, ?_, e3, c3, ?_, ?_, ?_, ?_, d3, d4, d2⟩⟩
    · simp [Box.truthy]; omega
    · exact Nat.le_of_lt d2
    · intro c k hc1 hc2 hl
      exact ⟨hc1, hc2, inrow c k hc1 hc2 hl⟩
    · exact ⟨r, ⟨Nat.le_refl _, Nat.lt_add_of_pos_right d1, inrow x r (by omega) (by omega) hr⟩, hr⟩
    · exact ⟨ct, ⟨t1, t2, Nat.le_refl _, Nat.lt_add_of_pos_right e2⟩, t3⟩
    · refine ⟨cb, ⟨u1, u2, ?_, ?_⟩, u3⟩
      · show y ≤ y + h - 1; omega
      · show y + h - 1 < y + h; omega
  · have hw0 := c5 (by omega)
    subst hw0
    have hblank : ∀ c, x0 ≤ c → c + 1 < i.bounds.w → BlankCol i c := by
      intro c h1 h2; exact c3 c h1 (by omega)
    by_cases hab : x < i.bounds.w ∨ 1 < i.bounds.h
    · right; left
      have hd : i.dataAt x 0 = .ok x := by
        rcases hab with h | h
        · have := dataAt_eq wf (x := x) (y := 0) h hh
          simpa using this
        · exact dataAt_row wf c2 h (by omega)
      obtain ⟨b, f1, f2, f3⟩ := boxRows_zero wf hh hd
      refine ⟨b, c7.trans f1, by simp [Box.truthy, f3], hblank, ?_⟩
      rcases hab with h | h
      · right
        rw [show i.bounds.w - 1 = x by omega]
        exact c4 h
      · exact .inl h
    · right; right
      have hxw : x = i.bounds.w := by omega
      subst hxw
      refine ⟨?_, by omega, c3⟩
      rw [c7]
      unfold boxRows
      rw [dataAt_abort wf (by omega)]
      rfl

/-- `Joined` needs a letter in each of the two columns. -/
theorem joined_left {i : Image} {x : Nat} (h : Joined i x) : ¬ BlankCol i x := by
  obtain ⟨y, _, h1, _⟩ := h
  intro hb
  rw [hb y] at h1; simp at h1

theorem segmentFrom_ok {i : Image} (wf : i.WF) (hh : 0 < i.bounds.h)
    (hsz : i.bounds.w * i.bounds.h + i.bounds.w ≤ W32) (fuel : Nat) :
    ∀ x, x < i.bounds.w → i.bounds.w - x < fuel →
      (0 < x → x + 1 < i.bounds.w → ¬ Joined i (x - 1)) →
      (∃ bs, segmentFrom i fuel x = .ok bs ∧
        (1 < i.bounds.h ∨ ¬ BlankCol i (i.bounds.w - 1)) ∧
        bs.length + x + 1 ≤ i.bounds.w ∧
        (∀ b ∈ bs, x ≤ b.x ∧ (∃ x0, CharBox i x0 b) ∧ (0 < b.x → ¬ Joined i (b.x - 1))) ∧
        bs.Pairwise (fun a b => a.x + a.w ≤ b.x) ∧
        (∀ c r, x ≤ c → c + 1 < i.bounds.w → letter i c r = true → ∃ b ∈ bs, InBox b c r)) ∨
      (segmentFrom i fuel x = .abort ∧ i.bounds.h = 1 ∧ BlankCol i (i.bounds.w - 1)) := by
  induction fuel with
  | zero => intro x _ h; omega
  | succ fuel ih =>
    intro x hx hf hj
    have hwl := wf.w_lt
    unfold segmentFrom
    rcases makeBox_ok wf hx hh hsz with ⟨b, h1, h2, h3⟩ | ⟨b, h1, h2, h3, h4⟩ | ⟨h1, h2, h3⟩
    · have hb1 := h3.wpos
      have hb2 := h3.notLast
      have hb3 := h3.left
      have hj' : 0 < b.x → ¬ Joined i (b.x - 1) := by
        intro h0
        by_cases hbx : b.x = x
        · rw [hbx]; exact hj (by omega) (by omega)
        · intro hjj
          exact joined_left hjj (h3.before _ (by omega) (by omega))
      rw [h1]
      simp only [Res.ok_bind, h2, if_true]
      rw [uadd_eq (by omega)]
      rcases ih (b.x + b.w) hb2 (by omega) (fun _ hlt => h3.maximal hlt) with
        ⟨bs, g1, g2, g3, g4, g5, g6⟩ | ⟨g1, g2, g3⟩
      · left
        rw [g1]
        refine ⟨b :: bs, rfl, g2, by simp; omega, ?_, ?_, ?_⟩
        · intro a ha
          rcases List.mem_cons.1 ha with rfl | ha
          · exact ⟨hb3, ⟨x, h3⟩, hj'⟩
          · obtain ⟨k1, k2, k3⟩ := g4 a ha
            exact ⟨by omega, k2, k3⟩
        · rw [List.pairwise_cons]
          exact ⟨fun a ha => (g4 a ha).1, g5⟩
        · intro c r hc1 hc2 hl
          by_cases hc : c < b.x + b.w
          · by_cases hcx : b.x ≤ c
            · exact ⟨b, by simp, h3.covers c r hcx hc hl⟩
            · have := h3.before c hc1 (by omega) r
              rw [hl] at this; simp at this
          · obtain ⟨a, ha, hin⟩ := g6 c r (by omega) hc2 hl
            exact ⟨a, by simp [ha], hin⟩
      · right
        rw [g1]
        exact ⟨rfl, g2, g3⟩
    · left
      rw [h1]
      simp only [Res.ok_bind, h2]
      refine ⟨[], rfl, h4, by simp; omega, by simp, by simp, ?_⟩
      intro c r hc1 hc2 hl
      have := h3 c hc1 hc2 r
      rw [hl] at this; simp at this
    · right
      rw [h1]
      exact ⟨rfl, h2, h3 _ (by omega) (by omega)⟩

end Ppocr

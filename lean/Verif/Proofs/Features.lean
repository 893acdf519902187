import Verif.Proofs.Box
import Verif.Spec.Features

namespace Ppocr
open Spec

/-! ### Sums -/

/-- `f a + … + f (a+n-1)`. -/
def sumFrom (a n : Nat) (f : Nat → Nat) : Nat := ((List.range' a n).map f).sum

theorem sumFrom_zero (a : Nat) (f : Nat → Nat) : sumFrom a 0 f = 0 := rfl

theorem sumFrom_succ (a n : Nat) (f : Nat → Nat) :
    sumFrom a (n + 1) f = f a + sumFrom (a + 1) n f := by
  simp [sumFrom, List.range'_succ]

theorem sumFrom_last (n : Nat) (f : Nat → Nat) : ∀ a,
    sumFrom a (n + 1) f = sumFrom a n f + f (a + n) := by
  induction n with
  | zero => intro a; simp [sumFrom]
  | succ n ih =>
    intro a
    rw [sumFrom_succ, ih (a + 1), sumFrom_succ]
    rw [show a + 1 + n = a + (n + 1) by omega]
    omega

theorem sumTo_eq (n : Nat) (f : Nat → Nat) : sumTo n f = sumFrom 0 n f := by
  simp [sumTo, sumFrom, List.range_eq_range']

theorem sumFrom_congr {n : Nat} {f g : Nat → Nat} : ∀ {a b : Nat},
    (∀ k, k < n → f (a + k) = g (b + k)) → sumFrom a n f = sumFrom b n g := by
  induction n with
  | zero => intro a b _; rfl
  | succ n ih =>
    intro a b h
    rw [sumFrom_succ, sumFrom_succ, ih (a := a + 1) (b := b + 1)]
    · have := h 0 (by omega)
      simp at this
      rw [this]
    · intro k hk
      have := h (k + 1) (by omega)
      rw [show a + 1 + k = a + (k + 1) by omega, show b + 1 + k = b + (k + 1) by omega]
      exact this

theorem sumTo_congr {n : Nat} {f g : Nat → Nat} (h : ∀ k, k < n → f k = g k) :
    sumTo n f = sumTo n g := by
  rw [sumTo_eq, sumTo_eq]
  exact sumFrom_congr (by intro k hk; simpa using h k hk)

theorem sumTo_le {n : Nat} {f g : Nat → Nat} (h : ∀ k, k < n → f k ≤ g k) :
    sumTo n f ≤ sumTo n g := by
  rw [sumTo_eq, sumTo_eq]
  induction n with
  | zero => simp [sumFrom]
  | succ n ih =>
    rw [sumFrom_last, sumFrom_last]
    have := ih (fun k hk => h k (by omega))
    have := h n (by omega)
    simp only [Nat.zero_add]
    omega

/-- Reversing the order of summation. -/
theorem sumFrom_rev (n : Nat) : ∀ (a : Nat) (f : Nat → Nat),
    sumFrom a n f = sumTo n fun k => f (a + n - 1 - k) := by
  induction n with
  | zero => intro a f; rfl
  | succ n ih =>
    intro a f
    rw [sumFrom_last, sumTo_eq, sumFrom_succ, ih, sumTo_eq]
    simp only [Nat.zero_add]
    rw [show a + (n + 1) - 1 - 0 = a + n by omega]
    rw [Nat.add_comm]
    congr 1
    apply sumFrom_congr
    intro k hk
    congr 1
    omega

/-! ### Scans -/

theorem addLetters_append (data : List Pixel) (k m : Nat) (n : Nat) : ∀ p c,
    addLetters data k (n + m) p c =
      (addLetters data k n p c >>= fun c => addLetters data k m (p + n) c) := by
  induction n with
  | zero => intro p c; simp [addLetters]
  | succ n ih =>
    intro p c
    rw [show n + 1 + m = (n + m) + 1 by omega]
    simp only [addLetters, Res.bind_assoc]
    congr 1
    funext v
    rw [ih, show p + 1 + n = p + (n + 1) by omega]

theorem addLetters_row {i : Image} (wf : i.WF) {y : Nat} (hy : y < i.bounds.h) (k n : Nat) :
    ∀ a c, a + n ≤ i.bounds.w → c < W32 →
    addLetters i.data k n (y * i.bounds.w + a) c =
      .ok ((c + k * (List.range' a n).countP fun x => letter i x y) % W32) := by
  induction n with
  | zero =>
    intro a c _ hc
    simp [addLetters, Nat.mod_eq_of_lt hc]
  | succ n ih =>
    intro a c ha hc
    obtain ⟨p, h1, h2⟩ := rd_letter wf (x := a) (by omega) hy rfl
    unfold addLetters
    rw [h1]
    simp only [Res.ok_bind, h2]
    have hmod : uadd c k < W32 := Nat.mod_lt _ W32_pos
    rw [show y * i.bounds.w + a + 1 = y * i.bounds.w + (a + 1) by omega]
    rw [ih (a + 1) _ (by omega) (by split <;> assumption)]
    rw [List.range'_succ, List.countP_cons]
    cases hl : letter i a y
    · simp
    · simp only [if_true]
      congr 1
      unfold uadd
      rw [Nat.mod_add_mod, Nat.mul_add, Nat.mul_one]
      congr 1
      omega

theorem scanLetters_row {i : Image} (wf : i.WF) {y : Nat} (hy : y < i.bounds.h) (k : Nat)
    {a b c p ep : Nat} (hab : a ≤ b) (hb : b ≤ i.bounds.w) (hc : c < W32)
    (hp : p = y * i.bounds.w + a) (hep : ep = y * i.bounds.w + b) :
    scanLetters i.data k p ep c = .ok ((c + k * rowMass i y a b) % W32) := by
  unfold scanLetters rowMass
  rw [if_neg (by omega), show ep - p = b - a by omega, hp]
  exact addLetters_row wf hy k (b - a) a c (by omega) hc

/-- Scan of `m` whole rows. -/
theorem addLetters_rows {i : Image} (wf : i.WF) (k m : Nat) : ∀ y c, y + m ≤ i.bounds.h → c < W32 →
    addLetters i.data k (m * i.bounds.w) (y * i.bounds.w) c =
      .ok ((c + k * sumFrom y m fun r => rowMass i r 0 i.bounds.w) % W32) := by
  induction m with
  | zero => intro y c _ hc; simp [addLetters, sumFrom, Nat.mod_eq_of_lt hc]
  | succ m ih =>
    intro y c hy hc
    rw [show (m + 1) * i.bounds.w = i.bounds.w + m * i.bounds.w by rw [Nat.add_mul]; omega]
    rw [addLetters_append]
    have h1 := addLetters_row wf (y := y) (by omega) k i.bounds.w 0 c (by omega) hc
    rw [Nat.add_zero] at h1
    rw [h1]
    simp only [Res.ok_bind]
    rw [show y * i.bounds.w + i.bounds.w = (y + 1) * i.bounds.w by rw [Nat.add_mul]; omega]
    rw [ih (y + 1) _ (by omega) (Nat.mod_lt _ W32_pos), sumFrom_succ]
    congr 1
    rw [Nat.mod_add_mod]
    congr 1
    rw [Nat.mul_add, ← Nat.add_assoc]
    rfl

theorem scanLetters_rows {i : Image} (wf : i.WF) (k : Nat) {y z c p ep : Nat} (hyz : y ≤ z)
    (hz : z ≤ i.bounds.h) (hc : c < W32) (hp : p = y * i.bounds.w) (hep : ep = z * i.bounds.w) :
    scanLetters i.data k p ep c =
      .ok ((c + k * sumFrom y (z - y) fun r => rowMass i r 0 i.bounds.w) % W32) := by
  have hle : y * i.bounds.w ≤ z * i.bounds.w := Nat.mul_le_mul_right _ hyz
  unfold scanLetters
  rw [if_neg (by omega), hp, hep, ← Nat.mul_sub_right_distrib]
  exact addLetters_rows wf k (z - y) y c (by omega) hc

theorem rowMass_le (i : Image) (y a b : Nat) : rowMass i y a b ≤ b - a := by
  unfold rowMass
  have := List.countP_le_length (p := fun x => letter i x y) (l := List.range' a (b - a))
  simpa using this

/-- A weighted row loop: `weight y` and `skip y` are the coefficient and the side margin of row `y`. -/
def rowSum (i : Image) (y m : Nat) (weight skip : Nat → Nat) : Nat :=
  sumFrom y m fun r => weight r * rowMass i r (skip r) (i.bounds.w - skip r)

theorem row_ne {w y m : Nat} (hw : 0 < w) : y * w ≠ (y + (m + 1)) * w := by
  rw [Nat.add_mul, Nat.add_mul, Nat.one_mul]
  omega

theorem boxGravityLoop_ok {i : Image} (wf : i.WF) (hw : 0 < i.bounds.w) (isTop : Bool)
    (weight : Nat → Nat) (m : Nat) : ∀ (fuel y h g : Nat), m < fuel → y + m ≤ i.bounds.h → g < W32 →
    (0 < m → h = weight y) →
    (∀ r, y ≤ r → r + 1 < y + m →
      (if isTop then usub (weight r) 1 else uadd (weight r) 1) = weight (r + 1)) →
    boxGravityLoop i.data i.bounds.w ((y + m) * i.bounds.w) isTop fuel (y * i.bounds.w) h g =
      .ok ((g + rowSum i y m weight wholeRow) % W32) := by
  induction m with
  | zero =>
    intro fuel y h g hf _ hg _ _
    obtain ⟨f, rfl⟩ : ∃ f, fuel = f + 1 := ⟨fuel - 1, by omega⟩
    simp [boxGravityLoop, rowSum, sumFrom, Nat.mod_eq_of_lt hg]
  | succ m ih =>
    intro fuel y h g hf hy hg hh hn
    obtain ⟨f, rfl⟩ : ∃ f, fuel = f + 1 := ⟨fuel - 1, by omega⟩
    unfold boxGravityLoop
    rw [if_neg (row_ne hw)]
    have h1 := addLetters_row wf (y := y) (by omega) h i.bounds.w 0 g (by omega) hg
    rw [Nat.add_zero] at h1
    rw [h1]
    simp only [Res.ok_bind]
    rw [show y * i.bounds.w + i.bounds.w = (y + 1) * i.bounds.w by rw [Nat.add_mul]; omega]
    rw [show (y + (m + 1)) = y + 1 + m by omega]
    rw [ih f (y + 1) _ _ (by omega) (by omega) (Nat.mod_lt _ W32_pos) ?_ ?_]
    · congr 1
      rw [Nat.mod_add_mod]
      congr 1
      rw [rowSum, rowSum, sumFrom_succ, hh (by omega), ← Nat.add_assoc]
      rfl
    · intro hm
      rw [hh (by omega)]
      exact hn y (by omega) (by omega)
    · intro r hr1 hr2
      exact hn r (by omega) (by omega)

theorem diagDirLoop_ok {i : Image} (wf : i.WF) (hw : 0 < i.bounds.w) (isTop : Bool) (bh : Nat)
    (skip : Nat → Nat) (hs : ∀ r, 2 * skip r ≤ i.bounds.w) (m : Nat) :
    ∀ (fuel y ih d : Nat), m < fuel → y + m ≤ i.bounds.h → d < W32 → ih + m < W32 →
    (∀ r, r < m → diagX i.bounds.w (diagK bh isTop (ih + r)) = .ok (skip (y + r))) →
    diagDirLoop i.data i.bounds.w bh ((y + m) * i.bounds.w) isTop fuel (y * i.bounds.w) ih d =
      .ok ((d + rowSum i y m unit skip) % W32) := by
  induction m with
  | zero =>
    intro fuel y ih d hf _ hd _ _
    obtain ⟨f, rfl⟩ : ∃ f, fuel = f + 1 := ⟨fuel - 1, by omega⟩
    simp [diagDirLoop, rowSum, sumFrom, Nat.mod_eq_of_lt hd]
  | succ m IH =>
    intro fuel y ih d hf hy hd hih hx
    obtain ⟨f, rfl⟩ : ∃ f, fuel = f + 1 := ⟨fuel - 1, by omega⟩
    have hsy := hs y
    unfold diagDirLoop
    rw [if_neg (row_ne hw)]
    have hx0 := hx 0 (by omega)
    rw [Nat.add_zero, Nat.add_zero] at hx0
    rw [hx0]
    simp only [Res.ok_bind]
    rw [scanLetters_row wf (y := y) (by omega) 1 (a := skip y) (b := i.bounds.w - skip y)
      (by omega) (by omega) hd rfl (by omega)]
    simp only [Res.ok_bind]
    rw [show y * i.bounds.w + i.bounds.w = (y + 1) * i.bounds.w by rw [Nat.add_mul]; omega]
    rw [show (y + (m + 1)) = y + 1 + m by omega]
    rw [uadd_eq (show ih + 1 < W32 by omega)]
    rw [IH f (y + 1) (ih + 1) _ (by omega) (by omega) (Nat.mod_lt _ W32_pos) (by omega) ?_]
    · congr 1
      rw [Nat.mod_add_mod]
      congr 1
      rw [rowSum, rowSum, sumFrom_succ, ← Nat.add_assoc]
      rfl
    · intro r hr
      have := hx (r + 1) (by omega)
      rw [show ih + 1 + r = ih + (r + 1) by omega, show y + 1 + r = y + (r + 1) by omega]
      exact this

theorem diagGravLoop_ok {i : Image} (wf : i.WF) (hw : 0 < i.bounds.w) (isTop : Bool) (bh : Nat)
    (skip weight : Nat → Nat) (hs : ∀ r, 2 * skip r ≤ i.bounds.w) (m : Nat) :
    ∀ (fuel y ih h d : Nat), m < fuel → y + m ≤ i.bounds.h → d < W32 → ih + m < W32 →
    (∀ r, r < m → diagX i.bounds.w (diagK bh isTop (ih + r)) = .ok (skip (y + r))) →
    (0 < m → h = weight y) →
    (∀ r, y ≤ r → r + 1 < y + m →
      (if isTop then usub (weight r) 1 else uadd (weight r) 1) = weight (r + 1)) →
    diagGravLoop i.data i.bounds.w bh ((y + m) * i.bounds.w) isTop fuel (y * i.bounds.w) ih h d =
      .ok ((d + rowSum i y m weight skip) % W32) := by
  induction m with
  | zero =>
    intro fuel y ih h d hf _ hd _ _ _ _
    obtain ⟨f, rfl⟩ : ∃ f, fuel = f + 1 := ⟨fuel - 1, by omega⟩
    simp [diagGravLoop, rowSum, sumFrom, Nat.mod_eq_of_lt hd]
  | succ m IH =>
    intro fuel y ih h d hf hy hd hih hx hh hn
    obtain ⟨f, rfl⟩ : ∃ f, fuel = f + 1 := ⟨fuel - 1, by omega⟩
    have hsy := hs y
    unfold diagGravLoop
    rw [if_neg (row_ne hw)]
    have hx0 := hx 0 (by omega)
    rw [Nat.add_zero, Nat.add_zero] at hx0
    rw [hx0]
    simp only [Res.ok_bind]
    rw [scanLetters_row wf (y := y) (by omega) h (a := skip y) (b := i.bounds.w - skip y)
      (by omega) (by omega) hd rfl (by omega)]
    simp only [Res.ok_bind]
    rw [show y * i.bounds.w + i.bounds.w = (y + 1) * i.bounds.w by rw [Nat.add_mul]; omega]
    rw [show (y + (m + 1)) = y + 1 + m by omega]
    rw [uadd_eq (show ih + 1 < W32 by omega)]
    rw [IH f (y + 1) (ih + 1) _ _ (by omega) (by omega) (Nat.mod_lt _ W32_pos) (by omega) ?_ ?_ ?_]
    · congr 1
      rw [Nat.mod_add_mod]
      congr 1
      rw [rowSum, rowSum, sumFrom_succ, hh (by omega), ← Nat.add_assoc]
    · intro r hr
      have := hx (r + 1) (by omega)
      rw [show ih + 1 + r = ih + (r + 1) by omega, show y + 1 + r = y + (r + 1) by omega]
      exact this
    · intro hm
      rw [hh (by omega)]
      exact hn y (by omega) (by omega)
    · intro r hr1 hr2
      exact hn r (by omega) (by omega)

/-! ### The two halves -/

theorem topMass_eq (i : Image) (wt sp : Nat → Nat) :
    topMass i wt sp = rowSum i 0 (i.bounds.h / 2) wt sp := by
  rw [topMass, sumTo_eq]; rfl

theorem bottomMass_eq (i : Image) (wt sp : Nat → Nat) :
    bottomMass i wt sp = rowSum i (i.bounds.h - i.bounds.h / 2) (i.bounds.h / 2)
      (fun r => wt (i.bounds.h - 1 - r)) (fun r => sp (i.bounds.h - 1 - r)) := by
  rw [bottomMass, rowSum, sumFrom_rev]
  apply sumTo_congr
  intro k hk
  rw [show i.bounds.h - i.bounds.h / 2 + i.bounds.h / 2 - 1 - k = i.bounds.h - 1 - k by omega]
  rw [show i.bounds.h - 1 - (i.bounds.h - 1 - k) = k by omega]

theorem ep_eq {i : Image} (wf : i.WF) (hw : 0 < i.bounds.w) (hh : 0 < i.bounds.h) :
    i.dataAt 0 (i.bounds.h / 2) = .ok (i.bounds.h / 2 * i.bounds.w) := by
  have := dataAt_eq wf (x := 0) (y := i.bounds.h / 2) hw (by omega)
  simpa using this

theorem bottomStart_eq (b : Bounds) : bottomStart b (b.h / 2 * b.w) = (b.h - b.h / 2) * b.w := by
  unfold bottomStart
  split
  · rw [show b.h - b.h / 2 = b.h / 2 + 1 by omega, Nat.add_mul]; omega
  · rw [show b.h - b.h / 2 = b.h / 2 by omega]

theorem area_rows {i : Image} (wf : i.WF) :
    i.bounds.area = (i.bounds.h - i.bounds.h / 2 + i.bounds.h / 2) * i.bounds.w := by
  rw [area_eq wf, Nat.mul_comm, show i.bounds.h - i.bounds.h / 2 + i.bounds.h / 2 = i.bounds.h by omega]

theorem rowSum_unit (i : Image) (y m : Nat) :
    (sumFrom y m fun r => rowMass i r 0 i.bounds.w) = rowSum i y m unit wholeRow := by
  apply sumFrom_congr
  intro k _
  simp [unit, wholeRow]

theorem fuel_lt {w n : Nat} (hw : 0 < w) : n < n * w + 1 := by
  have := Nat.le_mul_of_pos_right n hw
  omega

theorem horizontalDirection_mod {i : Image} (wf : i.WF) (hw : 0 < i.bounds.w)
    (hh : 0 < i.bounds.h) : horizontalDirection i =
      .ok ⟨topMass i unit wholeRow % W32, bottomMass i unit wholeRow % W32⟩ := by
  unfold horizontalDirection
  rw [ep_eq wf hw hh]
  simp only [Res.ok_bind]
  rw [scanLetters_rows wf 1 (y := 0) (z := i.bounds.h / 2) (by omega) (by omega) W32_pos (by simp) rfl]
  simp only [Res.ok_bind]
  rw [bottomStart_eq, scanLetters_rows wf 1 (y := i.bounds.h - i.bounds.h / 2) (z := i.bounds.h)
    (by omega) (by omega) W32_pos rfl (by rw [area_eq wf, Nat.mul_comm])]
  simp only [Res.ok_bind, Res.pure_eq]
  rw [topMass_eq, bottomMass_eq, rowSum_unit, rowSum_unit]
  simp only [Nat.zero_add, Nat.one_mul, Nat.sub_zero]
  rw [show i.bounds.h - (i.bounds.h - i.bounds.h / 2) = i.bounds.h / 2 by omega]
  rfl

theorem horizontalGravity_mod {i : Image} (wf : i.WF) (hw : 0 < i.bounds.w)
    (hh : 0 < i.bounds.h) : horizontalGravity i =
      .ok ⟨topMass i (toMiddle i) wholeRow % W32, bottomMass i (toMiddle i) wholeRow % W32⟩ := by
  have hhl := wf.h_lt
  unfold horizontalGravity boxGravity
  simp only
  rw [ep_eq wf hw hh]
  simp only [Res.ok_bind]
  have h1 := boxGravityLoop_ok wf hw true (toMiddle i) (i.bounds.h / 2)
    (i.bounds.h / 2 * i.bounds.w + 1) 0 (i.bounds.h / 2) 0 (fuel_lt hw) (by omega) W32_pos
    (by intro _; simp [toMiddle])
    (by
      intro r _ hr
      simp only [if_true, toMiddle]
      rw [usub_eq (by omega) (by omega)]
      omega)
  rw [Nat.zero_add, Nat.zero_mul] at h1
  simp only [if_true]
  rw [h1]
  simp only [Res.ok_bind]
  rw [bottomStart_eq, area_rows wf]
  have h2 := boxGravityLoop_ok wf hw false (fun r => toMiddle i (i.bounds.h - 1 - r)) (i.bounds.h / 2)
    ((i.bounds.h - i.bounds.h / 2 + i.bounds.h / 2) * i.bounds.w + 1)
    (i.bounds.h - i.bounds.h / 2) 1 0
    (by
      have := fuel_lt (n := i.bounds.h - i.bounds.h / 2 + i.bounds.h / 2) hw
      omega)
    (by omega) W32_pos
    (by intro hm; simp only [toMiddle]; omega)
    (by
      intro r h1 h2
      simp only [Bool.false_eq_true, if_false, toMiddle]
      rw [uadd_eq (by omega)]
      omega)
  simp only [Bool.false_eq_true, if_false]
  rw [h2]
  simp only [Res.ok_bind, Res.pure_eq, Nat.zero_add]
  rw [topMass_eq, bottomMass_eq]
  rfl

theorem div_half_le (w k : Nat) : w / k / 2 ≤ w / 2 := by
  have : w / k ≤ w := Nat.div_le_self _ _
  omega

theorem diagX_eq {w k : Nat} (hw : w < W32) (hk : 0 < k) : diagX w k = .ok (w / 2 - w / k / 2) := by
  unfold diagX udiv
  rw [if_neg (by omega)]
  simp only [Res.ok_bind, Res.pure_eq]
  have := div_half_le w k
  rw [usub_eq (by omega) this]

theorem triangle_le (i : Image) (k : Nat) : 2 * triangle i k ≤ i.bounds.w := by
  unfold triangle
  generalize i.bounds.w / (k + 1) = q
  omega

theorem diagTop {i : Image} (wf : i.WF) {r : Nat} (hr : r < i.bounds.h / 2) :
    diagX i.bounds.w (diagK (i.bounds.h / 2) true (0 + r)) = .ok (triangle i (0 + r)) := by
  have := wf.h_lt
  unfold diagK
  rw [if_pos rfl, uadd_eq (by omega), diagX_eq wf.w_lt (by omega)]
  rw [triangle, Nat.add_comm 1]

theorem diagBottom {i : Image} (wf : i.WF) {r : Nat} (hr : r < i.bounds.h / 2) :
    diagX i.bounds.w (diagK (i.bounds.h / 2) false (0 + r)) =
      .ok (triangle i (i.bounds.h - 1 - (i.bounds.h - i.bounds.h / 2 + r))) := by
  have := wf.h_lt
  unfold diagK
  rw [if_neg (by simp), usub_eq (by omega) (by omega), diagX_eq wf.w_lt (by omega)]
  rw [triangle,
    show i.bounds.h - 1 - (i.bounds.h - i.bounds.h / 2 + r) + 1 = i.bounds.h / 2 - (0 + r) by omega]

theorem diagDirection_mod {i : Image} (wf : i.WF) (hw : 0 < i.bounds.w)
    (hh : 0 < i.bounds.h) : diagDirection i =
      .ok ⟨topMass i unit (triangle i) % W32, bottomMass i unit (triangle i) % W32⟩ := by
  have hhl := wf.h_lt
  unfold diagDirection
  simp only
  rw [ep_eq wf hw hh]
  simp only [Res.ok_bind]
  have h1 := diagDirLoop_ok wf hw true (i.bounds.h / 2) (triangle i) (triangle_le i) (i.bounds.h / 2)
    (i.bounds.h / 2 * i.bounds.w + 1) 0 0 0 (fuel_lt hw) (by omega) W32_pos (by omega)
    (fun r hr => diagTop wf hr)
  rw [Nat.zero_add, Nat.zero_mul] at h1
  rw [h1]
  simp only [Res.ok_bind]
  rw [bottomStart_eq, area_rows wf]
  have h2 := diagDirLoop_ok wf hw false (i.bounds.h / 2) (fun r => triangle i (i.bounds.h - 1 - r))
    (fun r => triangle_le i _) (i.bounds.h / 2)
    ((i.bounds.h - i.bounds.h / 2 + i.bounds.h / 2) * i.bounds.w + 1)
    (i.bounds.h - i.bounds.h / 2) 0 0
    (by
      have := fuel_lt (n := i.bounds.h - i.bounds.h / 2 + i.bounds.h / 2) hw
      omega)
    (by omega) W32_pos (by omega) (fun r hr => diagBottom wf hr)
  rw [h2]
  simp only [Res.ok_bind, Res.pure_eq, Nat.zero_add]
  rw [topMass_eq, bottomMass_eq]
  rfl

theorem diagGravity_mod {i : Image} (wf : i.WF) (hw : 0 < i.bounds.w)
    (hh : 0 < i.bounds.h) : diagGravity i =
      .ok ⟨topMass i (toMiddle i) (triangle i) % W32,
        bottomMass i (toMiddle i) (triangle i) % W32⟩ := by
  have hhl := wf.h_lt
  unfold diagGravity
  simp only
  rw [ep_eq wf hw hh]
  simp only [Res.ok_bind]
  have h1 := diagGravLoop_ok wf hw true (i.bounds.h / 2) (triangle i) (toMiddle i) (triangle_le i)
    (i.bounds.h / 2)
    (i.bounds.h / 2 * i.bounds.w + 1) 0 0 (i.bounds.h / 2) 0 (fuel_lt hw) (by omega) W32_pos (by omega)
    (fun r hr => diagTop wf hr)
    (by intro _; simp [toMiddle])
    (by
      intro r _ hr
      simp only [if_true, toMiddle]
      rw [usub_eq (by omega) (by omega)]
      omega)
  rw [Nat.zero_add, Nat.zero_mul] at h1
  rw [h1]
  simp only [Res.ok_bind]
  rw [bottomStart_eq, area_rows wf]
  have h2 := diagGravLoop_ok wf hw false (i.bounds.h / 2) (fun r => triangle i (i.bounds.h - 1 - r))
    (fun r => toMiddle i (i.bounds.h - 1 - r))
    (fun r => triangle_le i _) (i.bounds.h / 2)
    ((i.bounds.h - i.bounds.h / 2 + i.bounds.h / 2) * i.bounds.w + 1)
    (i.bounds.h - i.bounds.h / 2) 0 1 0
    (by
      have := fuel_lt (n := i.bounds.h - i.bounds.h / 2 + i.bounds.h / 2) hw
      omega)
    (by omega) W32_pos (by omega) (fun r hr => diagBottom wf hr)
    (by intro hm; simp only [toMiddle]; omega)
    (by
      intro r h1 h2
      simp only [Bool.false_eq_true, if_false, toMiddle]
      rw [uadd_eq (by omega)]
      omega)
  rw [h2]
  simp only [Res.ok_bind, Res.pure_eq, Nat.zero_add]
  rw [topMass_eq, bottomMass_eq]

/-! ### Bounds of the masses -/

/-- `wt 0 * (w - 2 sp 0) + …`: the area the masses are compared with. -/
def spanSum (i : Image) (wt sp : Nat → Nat) : Nat :=
  sumTo (i.bounds.h / 2) fun k => wt k * (i.bounds.w - 2 * sp k)

theorem topMass_le (i : Image) (wt sp : Nat → Nat) : topMass i wt sp ≤ spanSum i wt sp := by
  apply sumTo_le
  intro k _
  apply Nat.mul_le_mul_left
  have := rowMass_le i k (sp k) (i.bounds.w - sp k)
  omega

theorem bottomMass_le (i : Image) (wt sp : Nat → Nat) : bottomMass i wt sp ≤ spanSum i wt sp := by
  apply sumTo_le
  intro k _
  apply Nat.mul_le_mul_left
  have := rowMass_le i (i.bounds.h - 1 - k) (sp k) (i.bounds.w - sp k)
  omega

theorem sumTo_const (n c : Nat) : sumTo n (fun _ => c) = n * c := by
  rw [sumTo_eq]
  induction n with
  | zero => simp [sumFrom]
  | succ n ih => rw [sumFrom_last, ih, Nat.add_mul]; omega

theorem sumTo_zero (f : Nat → Nat) : sumTo 0 f = 0 := rfl

theorem sumTo_last (n : Nat) (f : Nat → Nat) : sumTo (n + 1) f = sumTo n f + f n := by
  rw [sumTo_eq, sumFrom_last, ← sumTo_eq, Nat.zero_add]

theorem sumTo_first (n : Nat) (f : Nat → Nat) : sumTo (n + 1) f = f 0 + sumTo n fun k => f (k + 1) := by
  rw [sumTo_eq, sumFrom_succ, sumTo_eq]
  congr 1
  apply sumFrom_congr
  intro k _
  congr 1
  omega

theorem sumTo_mul (n c : Nat) (f : Nat → Nat) : sumTo n (fun k => f k * c) = sumTo n f * c := by
  induction n with
  | zero => simp [sumTo]
  | succ n ih => rw [sumTo_last, sumTo_last, ih, Nat.add_mul]

theorem sumTo_down (n : Nat) : 2 * sumTo n (fun k => n - k) = n * (n + 1) := by
  induction n with
  | zero => simp [sumTo]
  | succ n ih =>
    rw [sumTo_first]
    have : (sumTo n fun k => n + 1 - (k + 1)) = sumTo n fun k => n - k := by
      apply sumTo_congr
      intro k _
      omega
    rw [this, Nat.mul_add, ih, Nat.sub_zero, ← Nat.add_mul, Nat.mul_comm]
    congr 1
    omega

/-- Area of one half. -/
theorem spanSum_unit_whole (i : Image) : spanSum i unit wholeRow = i.bounds.h / 2 * i.bounds.w := by
  unfold spanSum unit wholeRow
  simp only [Nat.one_mul, Nat.mul_zero, Nat.sub_zero]
  exact sumTo_const _ _

theorem spanSum_mid_whole (i : Image) :
    spanSum i (toMiddle i) wholeRow = i.bounds.h / 2 * (i.bounds.h / 2 + 1) / 2 * i.bounds.w := by
  unfold spanSum toMiddle wholeRow
  simp only [Nat.mul_zero, Nat.sub_zero]
  rw [sumTo_mul _ _ (fun k => i.bounds.h / 2 - k)]
  have := sumTo_down (i.bounds.h / 2)
  have h2 : sumTo (i.bounds.h / 2) (fun k => i.bounds.h / 2 - k) =
      i.bounds.h / 2 * (i.bounds.h / 2 + 1) / 2 := by omega
  rw [h2]

theorem spanSum_mono (i : Image) (wt sp : Nat → Nat) : spanSum i wt sp ≤ spanSum i wt wholeRow := by
  apply sumTo_le
  intro k _
  apply Nat.mul_le_mul_left
  simp [wholeRow]

theorem half_le (i : Image) : 2 * (i.bounds.h / 2 * i.bounds.w) ≤ i.bounds.w * i.bounds.h := by
  rw [← Nat.mul_assoc, Nat.mul_comm i.bounds.w]
  apply Nat.mul_le_mul_right
  omega

/-! ### The areas -/

theorem diagDirAreaLoop_ok {w : Nat} (hw : 0 < w) (hwl : w < W32) (m : Nat) :
    ∀ (fuel y a : Nat), m < fuel → y + m < W32 → a < W32 →
    diagDirAreaLoop w ((y + m) * w) fuel (y * w) y a =
      .ok ((a + sumFrom y m fun r => w - 2 * (w / 2 - w / (r + 1) / 2)) % W32) := by
  induction m with
  | zero =>
    intro fuel y a hf _ ha
    obtain ⟨f, rfl⟩ : ∃ f, fuel = f + 1 := ⟨fuel - 1, by omega⟩
    simp [diagDirAreaLoop, sumFrom, Nat.mod_eq_of_lt ha]
  | succ m IH =>
    intro fuel y a hf hy ha
    obtain ⟨f, rfl⟩ : ∃ f, fuel = f + 1 := ⟨fuel - 1, by omega⟩
    unfold diagDirAreaLoop
    rw [if_neg (row_ne hw), uadd_eq (show 1 + y < W32 by omega), diagX_eq hwl (by omega)]
    simp only [Res.ok_bind]
    have hx : 2 * (w / 2 - w / (1 + y) / 2) ≤ w := by
      generalize w / (1 + y) = q
      omega
    rw [umul_eq (by omega), usub_eq hwl (by omega)]
    rw [show y * w + w = (y + 1) * w by rw [Nat.add_mul]; omega]
    rw [show (y + (m + 1)) = y + 1 + m by omega, uadd_eq (show y + 1 < W32 by omega)]
    rw [IH f (y + 1) _ (by omega) (by omega) (uadd_lt _ _), sumFrom_succ]
    congr 1
    unfold uadd
    rw [Nat.mod_add_mod, Nat.add_comm 1 y, Nat.mul_comm 2]
    congr 1
    omega

theorem diagDirArea_mod {i : Image} (wf : i.WF) (hw : 0 < i.bounds.w) (hh : 0 < i.bounds.h) :
    diagDirArea i = .ok (umul (spanSum i unit (triangle i) % W32) 2) := by
  have hhl := wf.h_lt
  unfold diagDirArea
  rw [ep_eq wf hw hh]
  simp only [Res.ok_bind]
  have h1 := diagDirAreaLoop_ok hw wf.w_lt (i.bounds.h / 2) (i.bounds.h / 2 * i.bounds.w + 1) 0 0
    (fuel_lt hw) (by omega) W32_pos
  rw [Nat.zero_add, Nat.zero_mul, Nat.zero_add] at h1
  rw [h1]
  simp only [Res.ok_bind, Res.pure_eq]
  rw [spanSum, sumTo_eq]
  congr 3
  apply sumFrom_congr
  intro k _
  simp [unit, triangle]

theorem diagGravAreaLoop_ok {w bh : Nat} (hw : 0 < w) (hwl : w < W32) (hb : bh < W32) (m : Nat) :
    ∀ (fuel y a : Nat), m < fuel → y + m = bh → a < W32 →
    diagGravAreaLoop w bh (bh * w) fuel (y * w) y a =
      .ok ((a + sumFrom y m fun r => (w - 2 * (w / 2 - w / (bh - r) / 2)) * (r + 1)) % W32) := by
  induction m with
  | zero =>
    intro fuel y a hf hy ha
    obtain ⟨f, rfl⟩ : ∃ f, fuel = f + 1 := ⟨fuel - 1, by omega⟩
    rw [Nat.add_zero] at hy
    simp [diagGravAreaLoop, sumFrom, Nat.mod_eq_of_lt ha, hy]
  | succ m IH =>
    intro fuel y a hf hy ha
    obtain ⟨f, rfl⟩ : ∃ f, fuel = f + 1 := ⟨fuel - 1, by omega⟩
    unfold diagGravAreaLoop
    have hne : y * w ≠ bh * w := by rw [← hy]; exact row_ne hw
    rw [if_neg hne, usub_eq (show bh < W32 by omega) (by omega), diagX_eq hwl (by omega)]
    simp only [Res.ok_bind]
    have hx : 2 * (w / 2 - w / (bh - y) / 2) ≤ w := by
      generalize w / (bh - y) = q
      omega
    rw [umul_eq (show (w / 2 - w / (bh - y) / 2) * 2 < W32 by omega), usub_eq hwl (by omega)]
    rw [show y * w + w = (y + 1) * w by rw [Nat.add_mul]; omega]
    rw [uadd_eq (show y + 1 < W32 by omega)]
    rw [IH f (y + 1) _ (by omega) (by omega) (uadd_lt _ _), sumFrom_succ]
    congr 1
    unfold uadd umul
    rw [Nat.mod_add_mod, Nat.mul_comm 2]
    rw [Nat.add_right_comm, Nat.add_mod_mod]
    congr 1
    omega

theorem diagGravArea_mod {i : Image} (wf : i.WF) (hw : 0 < i.bounds.w) (hh : 0 < i.bounds.h) :
    diagGravArea i = .ok (umul (spanSum i (toMiddle i) (triangle i) % W32) 2) := by
  have hhl := wf.h_lt
  unfold diagGravArea
  simp only
  rw [ep_eq wf hw hh]
  simp only [Res.ok_bind]
  have h1 := diagGravAreaLoop_ok (bh := i.bounds.h / 2) hw wf.w_lt (by omega) (i.bounds.h / 2)
    (i.bounds.h / 2 * i.bounds.w + 1) 0 0 (fuel_lt hw) (by omega) W32_pos
  rw [Nat.zero_mul, Nat.zero_add] at h1
  rw [h1]
  simp only [Res.ok_bind, Res.pure_eq]
  rw [spanSum, sumFrom_rev]
  congr 3
  apply sumTo_congr
  intro k hk
  simp only [triangle, toMiddle, Nat.zero_add]
  rw [show i.bounds.h / 2 - (i.bounds.h / 2 - 1 - k) = k + 1 by omega]
  rw [show i.bounds.h / 2 - 1 - k + 1 = i.bounds.h / 2 - k by omega, Nat.mul_comm]

/-! ### hbar -/

theorem allLetters_ok {i : Image} (wf : i.WF) {y : Nat} (hy : y < i.bounds.h) (n : Nat) :
    ∀ x, x + n ≤ i.bounds.w → allLetters i.data n (y * i.bounds.w + x) =
      .ok ((List.range' x n).all fun c => letter i c y) := by
  induction n with
  | zero => intro x _; simp [allLetters]
  | succ n ih =>
    intro x hx
    obtain ⟨p, h1, h2⟩ := rd_letter wf (x := x) (by omega) hy rfl
    unfold allLetters
    rw [h1]
    simp only [Res.ok_bind, h2, List.range'_succ, List.all_cons]
    cases hl : letter i x y
    · simp
    · simp only [if_true, Bool.true_and]
      exact ih (x + 1) (by omega)

theorem allLetters_full {i : Image} (wf : i.WF) {y : Nat} (hy : y < i.bounds.h) :
    allLetters i.data i.bounds.w (y * i.bounds.w) = .ok (FullRow i y) := by
  have := allLetters_ok wf hy i.bounds.w 0 (by omega)
  rw [Nat.add_zero] at this
  rw [this, FullRow, List.range_eq_range']
  simp [hy]

/-- Row `y` starts a block of full rows. -/
def startsBlock (i : Image) (y : Nat) : Bool := FullRow i y && (y == 0 || !FullRow i (y - 1))

theorem hbarLoop_ok {i : Image} (wf : i.WF) (hw : 0 < i.bounds.w) (m : Nat) :
    ∀ (fuel y n : Nat), m < fuel → y + m = i.bounds.h → n + m < W32 →
    hbarLoop i.data i.bounds.w (i.bounds.h * i.bounds.w) fuel (y * i.bounds.w)
        (decide (y ≠ 0) && FullRow i (y - 1)) n =
      .ok (n + (List.range' y m).countP (startsBlock i)) := by
  induction m with
  | zero =>
    intro fuel y n hf hy _
    obtain ⟨f, rfl⟩ : ∃ f, fuel = f + 1 := ⟨fuel - 1, by omega⟩
    rw [show y = i.bounds.h by omega]
    simp [hbarLoop]
  | succ m IH =>
    intro fuel y n hf hy hn
    obtain ⟨f, rfl⟩ : ∃ f, fuel = f + 1 := ⟨fuel - 1, by omega⟩
    unfold hbarLoop
    have hne : y * i.bounds.w ≠ i.bounds.h * i.bounds.w := by rw [← hy]; exact row_ne hw
    rw [if_neg hne, allLetters_full wf (by omega)]
    simp only [Res.ok_bind]
    rw [show y * i.bounds.w + i.bounds.w = (y + 1) * i.bounds.w by rw [Nat.add_mul]; omega]
    have hst : (FullRow i y && !(decide (y ≠ 0) && FullRow i (y - 1))) = startsBlock i y := by
      unfold startsBlock
      by_cases h0 : y = 0
      · simp [h0]
      · have : (y == 0) = false := by simpa using h0
        simp [h0, this]
    rw [hst]
    have hprev : FullRow i y = (decide (y + 1 ≠ 0) && FullRow i (y + 1 - 1)) := by simp
    rw [hprev, List.range'_succ, List.countP_cons]
    cases hb : startsBlock i y
    · simp only [Bool.false_eq_true, if_false]
      rw [IH f (y + 1) n (by omega) (by omega) (by omega)]
      rfl
    · simp only [if_true]
      rw [uadd_eq (by omega), IH f (y + 1) (n + 1) (by omega) (by omega) (by omega)]
      congr 1
      omega

theorem density_count {i : Image} (wf : i.WF) :
    scanLetters i.data 1 0 i.bounds.area 0 = .ok (mass i % W32) := by
  rw [scanLetters_rows wf 1 (y := 0) (z := i.bounds.h) (by omega) (by omega) W32_pos (by simp)
    (by rw [area_eq wf, Nat.mul_comm])]
  rw [mass, sumTo_eq]
  simp

theorem mass_le (i : Image) : mass i ≤ i.bounds.w * i.bounds.h := by
  have : mass i ≤ sumTo i.bounds.h fun _ => i.bounds.w := by
    apply sumTo_le
    intro k _
    have := rowMass_le i k 0 i.bounds.w
    omega
  rw [sumTo_const, Nat.mul_comm] at this
  exact this

/-! ### Percentages -/

theorem percent_eq {base den : Nat} {t : TopBottom} (hb : t.bottom ≤ base + t.top)
    (h1 : base + t.top < W32) (h2 : (base + t.top - t.bottom) * 100 < W32) (hd : 0 < den) :
    percent base t den = .ok ((base + t.top - t.bottom) * 100 / den) := by
  unfold percent udiv
  rw [uadd_eq h1, usub_eq h1 hb, umul_eq h2, if_neg (by omega)]

theorem ratio200_ok {t : TopBottom} {a : Nat} (ht : t.top ≤ a) (hb : t.bottom ≤ a)
    (hs : 200 * a < W32) :
    ∃ v, ratio200 t = .ok v ∧ v ≤ 200 ∧
      (0 < t.top + t.bottom → v = 200 * t.top / (t.top + t.bottom)) := by
  unfold ratio200
  simp only
  rw [uadd_eq (by omega)]
  by_cases h0 : t.top + t.bottom = 0
  · rw [if_neg (by simpa using h0)]
    exact ⟨100, rfl, by omega, by omega⟩
  · rw [if_pos h0, percent_eq (by omega) (by omega) (by omega) (by omega)]
    refine ⟨_, rfl, ?_, ?_⟩
    · apply Nat.div_le_of_le_mul
      omega
    · intro _
      congr 1
      omega

theorem percent100_ok {a : Nat} {t : TopBottom} (ht : t.top ≤ a) (hb : t.bottom ≤ a)
    (hs : 200 * a < W32) (ha : 0 < a) : ∃ v, percent a t (umul a 2) = .ok v ∧ v ≤ 100 := by
  rw [umul_eq (by omega), percent_eq (by omega) (by omega) (by omega) (by omega)]
  refine ⟨_, rfl, ?_⟩
  apply Nat.div_le_of_le_mul
  omega

theorem percentDv_ok {a : Nat} {t : TopBottom} (ht : t.top ≤ a) (hb : t.bottom ≤ a)
    (hs : 200 * a < W32) (ha : 0 < a) :
    percent (uadd t.top t.bottom) t (umul a 2) = .ok (t.top * 100 / a) := by
  rw [umul_eq (by omega), uadd_eq (by omega), percent_eq (by omega) (by omega) (by omega) (by omega)]
  congr 1
  rw [show t.top + t.bottom + t.top - t.bottom = t.top * 2 by omega]
  rw [show t.top * 2 * 100 = t.top * 100 * 2 by omega]
  exact Nat.mul_div_mul_right _ _ (by omega)

theorem spanSum_pos {i : Image} (hw : 0 < i.bounds.w) (hh : 1 < i.bounds.h) (wt : Nat → Nat)
    (h0 : 0 < wt 0) : 0 < spanSum i wt (triangle i) := by
  unfold spanSum
  obtain ⟨n, hn⟩ : ∃ n, i.bounds.h / 2 = n + 1 := ⟨i.bounds.h / 2 - 1, by omega⟩
  rw [hn, sumTo_first]
  have ht : triangle i 0 = 0 := by
    unfold triangle
    rw [Nat.zero_add, Nat.div_one]
    omega
  rw [ht]
  have : 0 < wt 0 * (i.bounds.w - 2 * 0) := Nat.mul_pos h0 (by omega)
  omega

/-- What the direction features need: no wrap in the masses. -/
theorem direction_bound {i : Image} (wf : i.WF) (sp : Nat → Nat) :
    topMass i unit sp ≤ i.bounds.h / 2 * i.bounds.w ∧
    bottomMass i unit sp ≤ i.bounds.h / 2 * i.bounds.w ∧
    i.bounds.h / 2 * i.bounds.w < W32 := by
  have h1 := topMass_le i unit sp
  have h2 := bottomMass_le i unit sp
  have h3 := spanSum_mono i unit sp
  rw [spanSum_unit_whole] at h3
  have h4 := half_le i
  have := wf.small
  omega

theorem rowMass_congr {i j : Image} {y y' : Nat} (h : ∀ x, pix j x y = pix i x y') (a b : Nat) :
    rowMass j y a b = rowMass i y' a b := by
  unfold rowMass letter
  simp only [h]

theorem masses_of_halves {i j : Image} (hb : j.bounds = i.bounds)
    (h : ∀ x y, y < i.bounds.h / 2 ∨ i.bounds.h - i.bounds.h / 2 ≤ y → pix j x y = pix i x y)
    (wt sp : Nat → Nat) :
    topMass j wt sp = topMass i wt sp ∧ bottomMass j wt sp = bottomMass i wt sp := by
  unfold topMass bottomMass
  rw [hb]
  constructor
  · apply sumTo_congr
    intro k hk
    rw [rowMass_congr fun x => h x k (.inl hk)]
  · apply sumTo_congr
    intro k hk
    rw [rowMass_congr fun x => h x _ (.inr (by omega))]

/-- What the gravity features need. -/
theorem gravity_bound (i : Image) (sp : Nat → Nat) :
    topMass i (toMiddle i) sp ≤ i.bounds.h / 2 * (i.bounds.h / 2 + 1) / 2 * i.bounds.w ∧
    bottomMass i (toMiddle i) sp ≤ i.bounds.h / 2 * (i.bounds.h / 2 + 1) / 2 * i.bounds.w := by
  have h1 := topMass_le i (toMiddle i) sp
  have h2 := bottomMass_le i (toMiddle i) sp
  have h3 := spanSum_mono i (toMiddle i) sp
  rw [spanSum_mid_whole] at h3
  omega

end Ppocr

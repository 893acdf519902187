import Verif.Spec.Image

/-! Helper lemmas about pixel grids and the image loops. -/

namespace Ppocr

open Spec

theorem idx_lt {x y w h : Nat} (hx : x < w) (hy : y < h) : y * w + x < w * h := by
  have h1 : (y + 1) * w ≤ h * w := Nat.mul_le_mul_right w hy
  rw [Nat.add_mul, Nat.one_mul] at h1
  rw [Nat.mul_comm w h]
  omega

/-- Row-major list of the values of `f` (row index first). -/
def grid {α : Type} (h w : Nat) (f : Nat → Nat → α) : List α :=
  (List.range h).flatMap fun y => (List.range w).map fun x => f y x

theorem grid_zero {α : Type} (w : Nat) (f : Nat → Nat → α) : grid 0 w f = [] := rfl

theorem grid_succ {α : Type} (h w : Nat) (f : Nat → Nat → α) :
    grid (h + 1) w f = grid h w f ++ (List.range w).map fun x => f h x := by
  simp [grid, List.range_succ]

@[simp] theorem grid_length {α : Type} (h w : Nat) (f : Nat → Nat → α) :
    (grid h w f).length = h * w := by
  induction h with
  | zero => simp [grid_zero]
  | succ h ih => rw [grid_succ]; simp [ih, Nat.add_mul]

theorem grid_get {α : Type} (h w : Nat) (f : Nat → Nat → α) {x y : Nat} (hx : x < w) (hy : y < h) :
    (grid h w f)[y * w + x]? = some (f y x) := by
  induction h with
  | zero => omega
  | succ h ih =>
    rw [grid_succ]
    by_cases hh : y < h
    · have := idx_lt hx hh
      rw [List.getElem?_append_left (by rw [grid_length, Nat.mul_comm h w]; exact this)]
      exact ih hh
    · have : y = h := by omega
      subst this
      rw [List.getElem?_append_right (by simp)]
      simp [hx]

/-- A list of the right length is determined by its row-major cells. -/
theorem eq_of_cells {α : Type} {a b : List α} {w h : Nat} (ha : a.length = w * h)
    (hb : b.length = w * h)
    (H : ∀ x y, x < w → y < h → a[y * w + x]? = b[y * w + x]?) : a = b := by
  apply List.ext_getElem?
  intro n
  by_cases hn : n < w * h
  · have hw : 0 < w := by
      rcases Nat.eq_zero_or_pos w with h0 | h0
      · subst h0; omega
      · exact h0
    have e : n / w * w + n % w = n := Nat.div_add_mod' n w
    have := H (n % w) (n / w) (Nat.mod_lt _ hw) (Nat.div_lt_of_lt_mul hn)
    rw [e] at this
    exact this
  · rw [List.getElem?_eq_none (by omega), List.getElem?_eq_none (by omega)]

theorem pix_eq {i : Image} {x y : Nat} (hx : x < i.bounds.w) (hy : y < i.bounds.h) :
    pix i x y = i.data[y * i.bounds.w + x]? := by
  simp [pix, hx, hy]

theorem pix_isSome {i : Image} (wf : i.WF) {x y : Nat} (hx : x < i.bounds.w)
    (hy : y < i.bounds.h) : ∃ p, pix i x y = some p := by
  rw [pix_eq hx hy]
  have := idx_lt hx hy
  rw [← wf.len] at this
  exact ⟨_, by rw [List.getElem?_eq_getElem this]⟩

theorem pix_none {i : Image} {x y : Nat} (h : ¬ (x < i.bounds.w ∧ y < i.bounds.h)) :
    pix i x y = none := by
  simp [pix, h]

/-- Image equality from pixel equality. -/
theorem Image.ext_pix {a b : Image} (wa : a.WF) (wb : b.WF) (h : SamePicture a b) : a = b := by
  obtain ⟨⟨aw, ah⟩, ad⟩ := a
  obtain ⟨⟨bw, bh⟩, bd⟩ := b
  obtain ⟨h1, h2, h3⟩ := h
  simp only at h1 h2
  subst h1 h2
  congr 1
  refine eq_of_cells wa.len wb.len ?_
  intro x y hx hy
  have := h3 x y
  rwa [pix_eq hx hy, pix_eq (i := ⟨⟨aw, ah⟩, bd⟩) hx hy] at this

theorem toSizeT_eq {i : Image} (wf : i.WF) {x y : Nat} (hx : x < i.bounds.w)
    (hy : y < i.bounds.h) : i.toSizeT x y = y * i.bounds.w + x := by
  have h1 := idx_lt hx hy
  have h2 := wf.small
  unfold Image.toSizeT
  rw [umul_eq (by omega), uadd_eq (by omega)]

theorem area_eq {i : Image} (wf : i.WF) : i.bounds.area = i.bounds.w * i.bounds.h :=
  umul_eq wf.small

theorem dataAt_eq {i : Image} (wf : i.WF) {x y : Nat} (hx : x < i.bounds.w)
    (hy : y < i.bounds.h) : i.dataAt x y = .ok (y * i.bounds.w + x) := by
  unfold Image.dataAt
  rw [toSizeT_eq wf hx hy, umul_eq wf.small]
  have := idx_lt hx hy
  simp [this]

theorem get_eq {i : Image} (wf : i.WF) {x y : Nat} (hx : x < i.bounds.w)
    (hy : y < i.bounds.h) {p : Pixel} (hp : pix i x y = some p) : i.get x y = .ok p := by
  unfold Image.get
  rw [dataAt_eq wf hx hy]
  rw [pix_eq hx hy] at hp
  simp [rd_of_getElem? hp]

/-! ### section -/

theorem take_drop_eq_map {α : Type} (l : List α) (d w : Nat)
    (g : Nat → α) (hg : ∀ x, x < w → l[d + x]? = some (g x)) :
    (l.drop d).take w = (List.range w).map g := by
  apply List.ext_getElem?
  intro n
  by_cases hn : n < w
  · rw [List.getElem?_take_of_lt hn, List.getElem?_drop, hg n hn]
    simp [hn]
  · rw [List.getElem?_eq_none (by simp; omega), List.getElem?_eq_none (by simp; omega)]

theorem sectionRows_ok (src : List Pixel) (stride w : Nat) (g : Nat → Nat → Pixel) (d0 : Nat) (n : Nat) :
    ∀ (y : Nat) (o : Out Pixel),
    o.done = grid y w g →
    (∀ k, y ≤ k → k < y + n → d0 + k * stride + w ≤ src.length) →
    (∀ k x, y ≤ k → k < y + n → x < w → src[d0 + k * stride + x]? = some (g k x)) →
    (y + n) * w ≤ o.cap →
    sectionRows src stride w n (d0 + y * stride) o = .ok { cap := o.cap, done := grid (y + n) w g } := by
  induction n with
  | zero => intro y o ho _ _ _; simp [sectionRows, ← ho]
  | succ n ih =>
    intro y o ho hlen hg hcap
    unfold sectionRows
    have hm : (y + 1) * w ≤ (y + (n + 1)) * w := Nat.mul_le_mul_right w (by omega)
    rw [copyTo_ok src w _ o (hlen y (by omega) (by omega))
      (by rw [ho, grid_length]; rw [Nat.add_mul] at hm; omega)]
    simp only [Res.ok_bind]
    have e : d0 + y * stride + stride = d0 + (y + 1) * stride := by rw [Nat.add_mul]; omega
    rw [e, ih (y + 1)]
    · simp; congr 1; omega
    · simp only
      rw [grid_succ, ho]
      congr 1
      exact take_drop_eq_map _ _ _ _
        (fun x hx => hg y x (by omega) (by omega) hx)
    · intro k h1 h2; exact hlen k (by omega) (by omega)
    · intro k x h1 h2 h3; exact hg k x (by omega) (by omega) h3
    · simp only; rw [show y + 1 + n = y + (n + 1) by omega]; exact hcap

/-- The pixel at a coordinate, `0` outside. -/
def pixD (i : Image) (x y : Nat) : Pixel := (pix i x y).getD 0

theorem pixD_eq {i : Image} (wf : i.WF) {x y : Nat} (hx : x < i.bounds.w) (hy : y < i.bounds.h) :
    i.data[y * i.bounds.w + x]? = some (pixD i x y) := by
  obtain ⟨p, hp⟩ := pix_isSome wf hx hy
  unfold pixD
  rw [hp, ← pix_eq hx hy, hp]; rfl

theorem pix_pixD {i : Image} (wf : i.WF) {x y : Nat} (hx : x < i.bounds.w) (hy : y < i.bounds.h) :
    pix i x y = some (pixD i x y) := by
  rw [pix_eq hx hy, pixD_eq wf hx hy]

theorem row_bound {x y w h bw bh k : Nat} (hx : bw + x ≤ w) (hy : bh + y ≤ h) (hk : k < bh) :
    (y + k) * w + x + bw ≤ w * h := by
  have h1 : (y + k + 1) * w ≤ h * w := Nat.mul_le_mul_right w (by omega)
  rw [Nat.add_mul, Nat.one_mul] at h1
  rw [Nat.mul_comm w h]
  omega

theorem sectionInto_ok {i : Image} (wf : i.WF) {x y : Nat} {b : Bounds} {o : Out Pixel}
    (hx : x < i.bounds.w) (hy : y < i.bounds.h)
    (hw : b.w + x ≤ i.bounds.w) (hh : b.h + y ≤ i.bounds.h)
    (ho : o.done = []) (hcap : b.w * b.h ≤ o.cap) :
    sectionInto i o x y b =
      .ok { cap := o.cap, done := grid b.h b.w fun r c => pixD i (x + c) (y + r) } := by
  unfold sectionInto
  rw [dataAt_eq wf hx hy]
  simp only [Res.ok_bind]
  have key := sectionRows_ok i.data i.bounds.w b.w (fun r c => pixD i (x + c) (y + r))
    (y * i.bounds.w + x) b.h 0 o (by rw [ho]; rfl)
    (by
      intro k _ hk
      have := row_bound (k := k) hw hh (by omega)
      rw [wf.len]; rw [Nat.add_mul] at this; omega)
    (by
      intro k c _ hk hc
      rw [← pixD_eq wf (by omega) (by omega)]
      congr 1
      rw [Nat.add_mul]; omega)
    (by rw [Nat.zero_add, Nat.mul_comm]; exact hcap)
  simpa using key

/-! ### rotate90 -/

theorem rotCol_ok (src : List Pixel) (w : Nat) (hw : 0 < w) (x h : Nat) (g : Nat → Pixel)
    (hg : ∀ k, k < h → src[x + k * w]? = some (g k)) (n : Nat) :
    ∀ (k fuel : Nat) (o : Out Pixel), k + n = h → n < fuel →
      o.done.length + n ≤ o.cap →
      rotCol src w (x + w * h) fuel (x + k * w) o =
        .ok { cap := o.cap, done := o.done ++ (List.range' k n).map g } := by
  induction n with
  | zero =>
    intro k fuel o hk hf _
    obtain ⟨f, rfl⟩ : ∃ f, fuel = f + 1 := ⟨fuel - 1, by omega⟩
    have : k = h := by omega
    subst this
    simp [rotCol, Nat.mul_comm]
  | succ n ih =>
    intro k fuel o hk hf hcap
    obtain ⟨f, rfl⟩ : ∃ f, fuel = f + 1 := ⟨fuel - 1, by omega⟩
    have hne : ¬ x + k * w = x + w * h := by
      intro he
      have : w * k = w * h := by rw [Nat.mul_comm w k]; omega
      have := Nat.eq_of_mul_eq_mul_left hw this
      omega
    unfold rotCol
    rw [if_neg hne, rd_of_getElem? (hg k (by omega))]
    simp only [Res.ok_bind]
    rw [Out.push_ok (by omega)]
    simp only [Res.ok_bind]
    have e : x + k * w + w = x + (k + 1) * w := by rw [Nat.add_mul]; omega
    rw [e, ih (k + 1) f _ (by omega) (by omega) (by simp; omega)]
    congr 2
    simp [List.range'_succ]

theorem rotLoop_ok {i : Image} (wf : i.WF) (n : Nat) : ∀ (o : Out Pixel), n ≤ i.bounds.w →
    i.bounds.area ≤ o.cap →
    o.done = grid (i.bounds.w - n) i.bounds.h (fun r c => pixD i (i.bounds.w - 1 - r) c) →
    rotLoop i n o =
      .ok ⟨o.cap, grid i.bounds.w i.bounds.h (fun r c => pixD i (i.bounds.w - 1 - r) c)⟩ := by
  induction n with
  | zero => intro o _ _ ho; simp at ho; simp [rotLoop, ← ho]
  | succ n ih =>
    intro o hn hcap ho
    have hA := area_eq wf
    unfold rotLoop
    rw [hA]
    have key := rotCol_ok i.data i.bounds.w (by omega) n i.bounds.h (fun c => pixD i n c)
      (by
        intro k hk
        rw [← pixD_eq wf (x := n) (y := k) (by omega) hk]
        congr 1; omega)
      i.bounds.h 0 (i.bounds.w * i.bounds.h + 1) o (by omega)
      (by
        have : 1 * i.bounds.h ≤ i.bounds.w * i.bounds.h := Nat.mul_le_mul_right _ (by omega)
        omega)
      (by
        rw [hA] at hcap
        rw [ho, grid_length]
        have : (i.bounds.w - (n + 1) + 1) * i.bounds.h ≤ i.bounds.w * i.bounds.h :=
          Nat.mul_le_mul_right _ (by omega)
        rw [Nat.add_mul, Nat.one_mul] at this
        omega)
    simp only [Nat.zero_mul, Nat.add_zero] at key
    rw [key]
    simp only [Res.ok_bind]
    refine ih _ (by omega) hcap ?_
    simp only
    rw [ho, show i.bounds.w - n = (i.bounds.w - (n + 1)) + 1 by omega, grid_succ]
    congr 1
    rw [List.range_eq_range']
    apply List.map_congr_left
    intro c _
    congr 1
    omega

/-! ### equality -/

theorem equalN_ok (a b : List Pixel) (n : Nat) : ∀ i, i + n ≤ a.length → i + n ≤ b.length →
    equalN a b n i = .ok (decide ((a.drop i).take n = (b.drop i).take n)) := by
  induction n with
  | zero => intro i _ _; simp [equalN]
  | succ n ih =>
    intro i ha hb
    have ha' : i < a.length := by omega
    have hb' : i < b.length := by omega
    unfold equalN
    rw [rd_of_lt ha', rd_of_lt hb']
    simp only [Res.ok_bind]
    rw [List.drop_eq_getElem_cons ha', List.drop_eq_getElem_cons hb', List.take_succ_cons,
      List.take_succ_cons]
    by_cases hxy : a[i] = b[i]
    · rw [if_pos hxy, ih _ (by omega) (by omega)]
      simp [hxy]
    · rw [if_neg hxy]
      simp [hxy]

/-! ### permutations of grids -/

theorem flatMap_append_perm {α β : Type} (l : List α) (f g : α → List β) :
    (l.flatMap fun x => f x ++ g x).Perm (l.flatMap f ++ l.flatMap g) := by
  induction l with
  | nil => simp
  | cons a l ih =>
    simp only [List.flatMap_cons, List.append_assoc]
    refine List.Perm.append_left _ ?_
    refine (List.Perm.append_left _ ih).trans ?_
    rw [← List.append_assoc, ← List.append_assoc]
    exact List.Perm.append_right _ List.perm_append_comm

theorem grid_transpose_perm {α : Type} (w h : Nat) (f : Nat → Nat → α) :
    (grid w h f).Perm (grid h w fun r c => f c r) := by
  induction h with
  | zero => simp [grid]
  | succ h ih =>
    rw [grid_succ]
    have : grid w (h + 1) f = (List.range w).flatMap fun x =>
        ((List.range h).map fun y => f x y) ++ [f x h] := by
      simp [grid, List.range_succ]
    rw [this]
    refine (flatMap_append_perm _ _ _).trans ?_
    rw [show (List.range w).flatMap (fun x => [f x h]) = (List.range w).map fun x => f x h from (List.map_eq_flatMap).symm]
    exact List.Perm.append_right _ ih

theorem range_map_reverse (n : Nat) : ((List.range n).map fun r => n - 1 - r) = (List.range n).reverse := by
  apply List.ext_getElem
  · simp
  · intro k h1 h2; simp

theorem grid_reverse_perm {α : Type} (w h : Nat) (f : Nat → Nat → α) :
    (grid w h fun r c => f (w - 1 - r) c).Perm (grid w h f) := by
  have : (grid w h fun r c => f (w - 1 - r) c) =
      (List.range w).reverse.flatMap fun x => (List.range h).map fun c => f x c := by
    rw [← range_map_reverse, List.flatMap_map]; rfl
  rw [this]
  exact List.Perm.flatMap_right _ (List.reverse_perm _)

theorem grid_WF {w h : Nat} (f : Nat → Nat → Pixel) (hw : w < W32) (hh : h < W32)
    (hs : w * h < W32) : Image.WF { bounds := { w := w, h := h }, data := grid h w f } :=
  { len := by simp [Nat.mul_comm], small := hs, w_lt := hw, h_lt := hh }

theorem pix_grid {w h : Nat} (f : Nat → Nat → Pixel) {x y : Nat} (hx : x < w) (hy : y < h) :
    pix { bounds := { w := w, h := h }, data := grid h w f } x y = some (f y x) := by
  rw [pix_eq hx hy]
  exact grid_get h w f hx hy

end Ppocr

import Verif.Proofs.Margins
import Verif.Proofs.MarginsLearn
import Verif.Spec.Beside

/-! # Lemmas: a line cut into two pictures -/

namespace Ppocr
open Spec

section
variable {left : Nat} {i i' : Image}

theorem Spec.Part.letter_eq (m : Part left i i') {x : Nat} (hx : x < i.bounds.w) (y : Nat) :
    letter i' (x + left) y = letter i x y := by
  by_cases h : y < i.bounds.h
  · unfold letter
    rw [m.inside x y hx h]
  · have := m.high
    rw [letter_out (by omega), letter_out (by omega)]

theorem Spec.Part.blank (m : Part left i i') {x : Nat} (hx : x < i.bounds.w) : BlankCol i' (x + left) ↔ BlankCol i x := by
  unfold BlankCol
  constructor <;> intro h y
  · rw [← m.letter_eq hx]; exact h y
  · rw [m.letter_eq hx]; exact h y

theorem Spec.Part.joined (m : Part left i i') {x : Nat} (hx : x + 1 < i.bounds.w) : Joined i' (x + left) ↔ Joined i x := by
  unfold Joined
  rw [show x + left + 1 = x + 1 + left by omega]
  constructor
  · rintro ⟨y, y', h1, h2, h3⟩
    rw [m.letter_eq (by omega)] at h1 h2
    exact ⟨y, y', h1, h2, h3⟩
  · rintro ⟨y, y', h1, h2, h3⟩
    rw [← m.letter_eq (by omega)] at h1 h2
    exact ⟨y, y', h1, h2, h3⟩

/-- The box of a letter of the part is one of the whole. -/
theorem Spec.Part.charBox (m : Part left i i') (hr : i'.bounds.w = left + i.bounds.w ∨ BlankCol i (i.bounds.w - 1))
    {x x' : Nat} {b : Box} (h : CharBox i x b) (hx : x' ≤ x + left) (hb : ∀ c, x' ≤ c → c < x + left → BlankCol i' c) :
    CharBox i' x' (movedBox left 0 b) where
  wpos := h.wpos
  hpos := h.hpos
  left := by have := h.left; show x' ≤ b.x + left; omega
  right := by have := h.right; have := m.wide; show b.x + left + b.w ≤ _; omega
  bottom := by have := h.bottom; have := m.high; show b.y + 0 + b.h ≤ _; omega
  before := by
    intro c h1 h2
    have h2 : c < b.x + left := h2
    have := h.right
    by_cases hc : c < x + left
    · exact hb c h1 hc
    · rw [show c = c - left + left by omega, m.blank (by omega)]
      exact h.before _ (by omega) (by omega)
  covers := by
    intro c y h1 h2 hl
    have h1 : b.x + left ≤ c := h1
    have h2 : c < b.x + left + b.w := h2
    have := h.right
    rw [show c = c - left + left by omega] at hl ⊢
    rw [m.letter_eq (by omega)] at hl
    exact inBox_moved (top := 0).2 (h.covers _ _ (by omega) (by omega) hl)
  tightLeft := by
    obtain ⟨y, h1, h2⟩ := h.tightLeft
    have := h.right
    have := h.wpos
    exact ⟨y, inBox_moved (top := 0).2 h1, by show letter i' (b.x + left) y = true; rw [m.letter_eq (by omega)]; exact h2⟩
  tightTop := by
    obtain ⟨c, h1, h2⟩ := h.tightTop
    have := h.right
    have := h1.2.1
    exact ⟨c + left, inBox_moved (top := 0).2 h1, by
      show letter i' (c + left) b.y = true; rw [m.letter_eq (by omega)]; exact h2⟩
  tightBottom := by
    obtain ⟨c, h1, h2⟩ := h.tightBottom
    have := h.right
    have := h1.2.1
    exact ⟨c + left, inBox_moved (top := 0).2 h1, by
      show letter i' (c + left) (b.y + b.h - 1) = true; rw [m.letter_eq (by omega)]; exact h2⟩
  run := by
    intro c h1 h2
    have h1 : b.x + left ≤ c := h1
    have h2 : c + 1 < b.x + left + b.w := h2
    have := h.right
    rw [show c = c - left + left by omega, m.joined (by omega)]
    exact h.run _ (by omega) (by omega)
  maximal := by
    intro hlt
    have hlt : b.x + left + b.w + 1 < i'.bounds.w := hlt
    have hw := h.wpos
    have hn := h.notLast
    rw [show (movedBox left 0 b).x + (movedBox left 0 b).w - 1 = b.x + b.w - 1 + left by
      show b.x + left + b.w - 1 = _
      omega, m.joined (by omega)]
    by_cases hc : b.x + b.w + 1 < i.bounds.w
    · exact h.maximal hc
    · rcases hr with hr | hr
      · omega
      · rintro ⟨y, y', _, h2, _⟩
        rw [show b.x + b.w - 1 + 1 = i.bounds.w - 1 by omega, hr] at h2
        cases h2
  notLast := by have := h.notLast; have := m.wide; show b.x + left + b.w < _; omega

/-- The pixels of a box are the same. -/
theorem Spec.Part.pixels (m : Part left i i') (wf : i.WF) (wf' : i'.WF) {b : Box} (hw : 0 < b.w) (hh : 0 < b.h)
    (hx : b.x + b.w ≤ i.bounds.w) (hy : b.y + b.h ≤ i.bounds.h) (o : Out Pixel) :
    sectionInto i' o (b.x + left) b.y b.bounds = sectionInto i o b.x b.y b.bounds := by
  have h1 := m.wide
  have h2 := m.high
  unfold sectionInto
  rw [dataAt_eq wf (by omega) (by omega), dataAt_eq wf' (by omega) (by omega), Res.ok_bind, Res.ok_bind]
  apply sectionRows_same
  intro r k hr hk
  have hr : r < b.h := hr
  have hk : k < b.w := hk
  have := m.inside (b.x + k) (b.y + r) (by omega) (by omega)
  rw [pix_eq (by omega) (by omega), pix_eq (by omega) (by omega)] at this
  rw [show b.y * i'.bounds.w + (b.x + left) + r * i'.bounds.w + k =
      (b.y + r) * i'.bounds.w + (b.x + k + left) by simp only [Nat.add_mul]; omega,
    show b.y * i.bounds.w + b.x + r * i.bounds.w + k = (b.y + r) * i.bounds.w + (b.x + k) by simp only [Nat.add_mul]; omega]
  exact this

theorem Spec.Part.section_eq (m : Part left i i') (wf : i.WF) (wf' : i'.WF) (hw' : i'.bounds.w < W32)
    (hh' : i'.bounds.h < W32) {b : Box} (hw : 0 < b.w) (hh : 0 < b.h) (hx : b.x + b.w ≤ i.bounds.w)
    (hy : b.y + b.h ≤ i.bounds.h) :
    i'.section (movedBox left 0 b).x (movedBox left 0 b).y (movedBox left 0 b).bounds = i.section b.x b.y b.bounds := by
  have h1 := m.wide
  have h2 := m.high
  show i'.section (b.x + left) b.y b.bounds = _
  unfold Image.section
  have ew : b.bounds.w = b.w := rfl
  have eh : b.bounds.h = b.h := rfl
  have a1 : i'.bounds.contains (b.x + left) b.y = true := by
    unfold Bounds.contains
    simp only [Bool.and_eq_true, decide_eq_true_eq]
    omega
  have a2 : i.bounds.contains b.x b.y = true := by
    unfold Bounds.contains
    simp only [Bool.and_eq_true, decide_eq_true_eq]
    omega
  have a3 : (decide (uadd b.bounds.w (b.x + left) ≤ i'.bounds.w) && decide (uadd b.bounds.h b.y ≤ i'.bounds.h)) = true := by
    rw [ew, eh, uadd_eq (by omega), uadd_eq (by omega)]
    simp only [Bool.and_eq_true, decide_eq_true_eq]
    omega
  have a4 : (decide (uadd b.bounds.w b.x ≤ i.bounds.w) && decide (uadd b.bounds.h b.y ≤ i.bounds.h)) = true := by
    rw [ew, eh, uadd_eq (by omega), uadd_eq (by omega)]
    simp only [Bool.and_eq_true, decide_eq_true_eq]
    omega
  rw [a1, a2, a3, a4, m.pixels wf wf' hw hh hx hy]

theorem Spec.Part.pictures (m : Part left i i') (wf : i.WF) (wf' : i'.WF) (hw' : i'.bounds.w < W32) (hh' : i'.bounds.h < W32) :
    ∀ {bs : List Box} {as : List Image}, (∀ b ∈ bs, ∃ x, CharBox i x b) → Pictures i bs as →
      Pictures i' (bs.map (movedBox left 0)) as
  | [], [], _, _ => trivial
  | [], _ :: _, _, h => h.elim
  | _ :: _, [], _, h => h.elim
  | b :: bs, a :: as, hb, h => by
    obtain ⟨x, hc⟩ := hb b (by simp)
    refine ⟨?_, Spec.Part.pictures m wf wf' hw' hh' (fun b h => hb b (by simp [h])) h.2⟩
    rw [m.section_eq wf wf' hw' hh' hc.wpos hc.hpos hc.right hc.bottom]
    exact h.1

end

/-! ### The loop over the letters of both parts -/

theorem charBox_some {j : Image} {x0 : Nat} {b : Box} (hc : CharBox j x0 b) :
    ¬ ∀ c, x0 ≤ c → c + 1 < j.bounds.w → BlankCol j c := by
  intro h
  obtain ⟨y, _, hl⟩ := hc.tightLeft
  have := hc.notLast
  have := hc.wpos
  rw [h b.x hc.left (by omega) y] at hl
  cases hl

/-- The box found is the one that fits. -/
theorem makeBox_found {j : Image} {x0 : Nat} {b : Box} (wf : j.WF) (hh : 1 < j.bounds.h)
    (hs : j.bounds.w * j.bounds.h + j.bounds.w ≤ W32) (hc : CharBox j x0 b) :
    makeBox j x0 0 j.bounds = .ok b ∧ b.truthy = true := by
  have := hc.notLast
  have := hc.left
  rcases makeBox_ok wf (x0 := x0) (by omega) (by omega) hs with ⟨b', k1, k2, k3⟩ | ⟨b', _, _, k3, _⟩ | ⟨_, k2, _⟩
  · rw [charBox_unique k3 hc] at k1 k2
    exact ⟨k1, k2⟩
  · exact absurd k3 (charBox_some hc)
  · omega

theorem makeBox_none {j : Image} {x0 : Nat} (wf : j.WF) (hh : 1 < j.bounds.h)
    (hs : j.bounds.w * j.bounds.h + j.bounds.w ≤ W32) (hx : x0 < j.bounds.w)
    (hb : ∀ c, x0 ≤ c → c + 1 < j.bounds.w → BlankCol j c) : ∃ b, makeBox j x0 0 j.bounds = .ok b ∧ b.truthy = false := by
  rcases makeBox_ok wf hx (by omega) hs with ⟨b', k1, k2, k3⟩ | ⟨b', k1, k2, _, _⟩ | ⟨_, k2, _⟩
  · exact absurd hb (charBox_some k3)
  · exact ⟨b', k1, k2⟩
  · omega

section
variable {a b c : Image}

/-- The letters of the first part are found first; then nothing of it is left. -/
theorem Spec.Beside.front_loop (m : Beside a b c) (hr : BlankCol a (a.bounds.w - 1)) (wf : a.WF) (wf' : c.WF)
    (hh : 1 < c.bounds.h) (hs : c.bounds.w * c.bounds.h + c.bounds.w ≤ W32) :
    ∀ (fuel fuel' x : Nat) (as : List Box), a.bounds.w < fuel + x → c.bounds.w < fuel' + x → x < a.bounds.w →
      segmentFrom a fuel x = .ok as →
      ∃ f' x', x ≤ x' ∧ x' < a.bounds.w ∧ c.bounds.w < f' + x' ∧ (∀ k, x' ≤ k → k < a.bounds.w → BlankCol c k) ∧
        segmentFrom c fuel' x = segmentFrom c f' x' >>= fun r => .ok (as ++ r) := by
  have hwd := m.wide
  have hhd := m.front.high
  have hs1 : a.bounds.w * a.bounds.h + a.bounds.w ≤ W32 := by
    have := Nat.mul_le_mul (show a.bounds.w ≤ c.bounds.w by omega) (show a.bounds.h ≤ c.bounds.h by omega)
    omega
  intro fuel
  induction fuel with
  | zero => intro fuel' x as h; omega
  | succ fuel ih =>
    intro fuel' x as h1 h2 hx h
    obtain ⟨f, rfl⟩ : ∃ f, fuel' = f + 1 := ⟨fuel' - 1, by omega⟩
    unfold segmentFrom at h
    rcases makeBox_ok wf hx (by omega) hs1 with ⟨d, k1, k2, k3⟩ | ⟨d, k1, k2, k3, _⟩ | ⟨_, k2, _⟩
    · rw [k1, Res.ok_bind, if_pos k2] at h
      obtain ⟨r, hr', h⟩ := Res.bind_eq_ok.1 h
      cases h
      have hp := k3.wpos
      have hl := k3.left
      have hn := k3.notLast
      rw [uadd_eq (by omega)] at hr'
      have hc : CharBox c x (movedBox 0 0 d) := m.front.charBox (.inr hr) k3 (Nat.le_refl _) (by intro k _ _; omega)
      obtain ⟨e1, e2⟩ := makeBox_found wf' hh hs hc
      obtain ⟨f', x', a1, a2, a3, a4, a5⟩ := ih f (d.x + d.w) r (by omega) (by omega) (by omega) hr'
      refine ⟨f', x', by omega, a2, a3, a4, ?_⟩
      conv => lhs; unfold segmentFrom
      rw [e1, Res.ok_bind, if_pos e2]
      show (segmentFrom c f (uadd d.x d.w) >>= _) = _
      rw [uadd_eq (by omega), a5, Res.bind_assoc]
      congr 1
    · rw [k1, Res.ok_bind, if_neg (by rw [k2]; decide)] at h
      cases h
      refine ⟨f + 1, x, Nat.le_refl _, hx, h2, ?_, ?_⟩
      · intro k h3 h4
        have := (m.front.blank (x := k) h4).2
        rw [Nat.add_zero] at this
        apply this
        by_cases h5 : k + 1 < a.bounds.w
        · exact k3 k h3 h5
        · rw [show k = a.bounds.w - 1 by omega]; exact hr
      · cases segmentFrom c (f + 1) x <;> rfl
    · omega

/-- Then those of the second part. -/
theorem Spec.Beside.back_loop (m : Beside a b c) (wf : b.WF) (wf' : c.WF)
    (hh : 1 < c.bounds.h) (hs : c.bounds.w * c.bounds.h + c.bounds.w ≤ W32) :
    ∀ (fuel fuel' x x' : Nat) (bs : List Box), b.bounds.w < fuel + x → c.bounds.w < fuel' + x' → x < b.bounds.w →
      x' ≤ x + a.bounds.w → (∀ k, x' ≤ k → k < x + a.bounds.w → BlankCol c k) → segmentFrom b fuel x = .ok bs →
      segmentFrom c fuel' x' = .ok (bs.map (movedBox a.bounds.w 0)) := by
  have hwd := m.wide
  have hhd := m.back.high
  have hs1 : b.bounds.w * b.bounds.h + b.bounds.w ≤ W32 := by
    have := Nat.mul_le_mul (show b.bounds.w ≤ c.bounds.w by omega) (show b.bounds.h ≤ c.bounds.h by omega)
    omega
  intro fuel
  induction fuel with
  | zero => intro fuel' x x' bs h; omega
  | succ fuel ih =>
    intro fuel' x x' bs h1 h2 hx hx' hb h
    obtain ⟨f, rfl⟩ : ∃ f, fuel' = f + 1 := ⟨fuel' - 1, by omega⟩
    unfold segmentFrom at h
    rcases makeBox_ok wf hx (by omega) hs1 with ⟨d, k1, k2, k3⟩ | ⟨d, k1, k2, k3, _⟩ | ⟨_, k2, _⟩
    · rw [k1, Res.ok_bind, if_pos k2] at h
      obtain ⟨r, hr', h⟩ := Res.bind_eq_ok.1 h
      cases h
      have hp := k3.wpos
      have hl := k3.left
      have hn := k3.notLast
      rw [uadd_eq (by omega)] at hr'
      obtain ⟨e1, e2⟩ := makeBox_found wf' hh hs (m.back.charBox (.inl hwd) k3 hx' hb)
      have e := ih f (d.x + d.w) (d.x + d.w + a.bounds.w) r (by omega) (by omega) (by omega) (by omega) (by intro k _ _; omega) hr'
      unfold segmentFrom
      rw [e1, Res.ok_bind, if_pos e2]
      show (segmentFrom c f (uadd (d.x + a.bounds.w) d.w) >>= _) = _
      rw [uadd_eq (by omega), show d.x + a.bounds.w + d.w = d.x + d.w + a.bounds.w by omega, e]
      rfl
    · rw [k1, Res.ok_bind, if_neg (by rw [k2]; decide)] at h
      cases h
      obtain ⟨e, e1, e2⟩ := makeBox_none wf' hh hs (x0 := x') (by omega) (by
        intro k h3 h4
        by_cases h5 : k < x + a.bounds.w
        · exact hb k h3 h5
        · rw [show k = k - a.bounds.w + a.bounds.w by omega, m.back.blank (by omega)]
          exact k3 _ (by omega) (by omega))
      unfold segmentFrom
      rw [e1, Res.ok_bind, if_neg (by rw [e2]; decide)]
      rfl
    · omega

theorem Spec.Beside.segment (m : Beside a b c) (hr : BlankCol a (a.bounds.w - 1)) (wa : a.WF) (wb : b.WF) (wc : c.WF)
    (ha : 0 < a.bounds.w) (hb : 0 < b.bounds.w) (hh : 1 < c.bounds.h) (hs : c.bounds.w * c.bounds.h + c.bounds.w ≤ W32)
    {as bs : List Box} (h1 : Ppocr.segment a = .ok as) (h2 : Ppocr.segment b = .ok bs) :
    Ppocr.segment c = .ok (as ++ bs.map (movedBox a.bounds.w 0)) := by
  unfold Ppocr.segment at h1 h2 ⊢
  obtain ⟨f', x', _, a2, a3, a4, a5⟩ := m.front_loop hr wa wc hh hs _ (c.bounds.w + 1) 0 as (by omega) (by omega) ha h1
  rw [a5, m.back_loop wb wc hh hs _ f' 0 x' bs (by omega) a3 hb (by omega) (by intro k h3 h4; exact a4 k h3 (by omega)) h2]
  rfl

end

end Ppocr

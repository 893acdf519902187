import Verif.Proofs.Box
import Verif.Proofs.FilterPass
import Verif.Proofs.ExtractText
import Verif.Spec.Margins

namespace Ppocr
open Spec

/-! ### Boxes -/

theorem charBox_unique {i : Image} {x0 : Nat} {a b : Box} (ha : CharBox i x0 a) (hb : CharBox i x0 b) : a = b := by
  have nb : ∀ {c : Box}, CharBox i x0 c → ¬ BlankCol i c.x := by
    intro c hc h
    obtain ⟨y, _, hl⟩ := hc.tightLeft
    rw [h y] at hl
    cases hl
  have ex : a.x = b.x := by
    rcases Nat.lt_trichotomy a.x b.x with h | h | h
    · exact absurd (hb.before a.x ha.left h) (nb ha)
    · exact h
    · exact absurd (ha.before b.x hb.left h) (nb hb)
  have key : ∀ {c d : Box}, CharBox i x0 c → CharBox i x0 d → c.x = d.x → ¬ c.w < d.w := by
    intro c d hc hd e h
    have h1 := hd.notLast
    have h2 := hc.wpos
    exact hc.maximal (by omega) (hd.run _ (by omega) (by omega))
  have ew : a.w = b.w := by
    have h1 := key ha hb ex
    have h2 := key hb ha ex.symm
    omega
  have ey : a.y = b.y := by
    obtain ⟨x, h1, l1⟩ := ha.tightTop
    obtain ⟨x', h2, l2⟩ := hb.tightTop
    have c1 := hb.covers x a.y (by have := h1.1; omega) (by have := h1.2.1; omega) l1
    have c2 := ha.covers x' b.y (by have := h2.1; omega) (by have := h2.2.1; omega) l2
    have := c1.2.2.1
    have := c2.2.2.1
    omega
  have eh : a.h = b.h := by
    obtain ⟨x, h1, l1⟩ := ha.tightBottom
    obtain ⟨x', h2, l2⟩ := hb.tightBottom
    have c1 := hb.covers x _ (by have := h1.1; omega) (by have := h1.2.1; omega) l1
    have c2 := ha.covers x' _ (by have := h2.1; omega) (by have := h2.2.1; omega) l2
    have := c1.2.2.2
    have := c2.2.2.2
    have := ha.hpos
    have := hb.hpos
    omega
  cases a
  cases b
  simp only at ex ey ew eh
  rw [ex, ey, ew, eh]

section
variable {left top : Nat} {i i' : Image}

theorem Spec.Margins.letter_eq (m : Margins left top i i') (x y : Nat) : letter i' (x + left) (y + top) = letter i x y := by
  by_cases h : x < i.bounds.w ∧ y < i.bounds.h
  · unfold letter
    rw [m.inside x y h.1 h.2]
  · rw [letter_out h]
    cases e : letter i' (x + left) (y + top) with
    | false => rfl
    | true =>
      have := m.outside _ _ e
      omega

theorem Spec.Margins.blank (m : Margins left top i i') (x : Nat) : BlankCol i' (x + left) ↔ BlankCol i x := by
  constructor
  · intro h y
    rw [← m.letter_eq]
    exact h _
  · intro h y
    cases e : letter i' (x + left) y with
    | false => rfl
    | true =>
      have := m.outside _ _ e
      have h2 := m.letter_eq x (y - top)
      rw [show y - top + top = y by omega, e, h] at h2
      cases h2

theorem Spec.Margins.blank_left (m : Margins left top i i') {x : Nat} (hx : x < left) : BlankCol i' x := by
  intro y
  cases e : letter i' x y with
  | false => rfl
  | true =>
    have := m.outside _ _ e
    omega

theorem Spec.Margins.blank_right (m : Margins left top i i') {x : Nat} (hx : left + i.bounds.w ≤ x) : BlankCol i' x := by
  intro y
  cases e : letter i' x y with
  | false => rfl
  | true =>
    have := m.outside _ _ e
    omega

theorem Spec.Margins.joined (m : Margins left top i i') (x : Nat) : Joined i' (x + left) ↔ Joined i x := by
  constructor
  · rintro ⟨y, y', h1, h2, h3, h4⟩
    have o1 := m.outside _ _ h1
    have o2 := m.outside _ _ h2
    refine ⟨y - top, y' - top, ?_, ?_, by omega, by omega⟩
    · rw [← m.letter_eq, show y - top + top = y by omega]; exact h1
    · rw [← m.letter_eq, show y' - top + top = y' by omega, show x + 1 + left = x + left + 1 by omega]; exact h2
  · rintro ⟨y, y', h1, h2, h3, h4⟩
    refine ⟨y + top, y' + top, ?_, ?_, by omega, by omega⟩
    · rw [m.letter_eq]; exact h1
    · rw [show x + left + 1 = x + 1 + left by omega, m.letter_eq]; exact h2

theorem inBox_moved {b : Box} {x y : Nat} : InBox (movedBox left top b) (x + left) (y + top) ↔ InBox b x y := by
  unfold InBox movedBox
  simp only
  omega

/-- The box of a letter, moved. -/
theorem Spec.Margins.charBox (m : Margins left top i i')
    (hr : i'.bounds.w = left + i.bounds.w ∨ BlankCol i (i.bounds.w - 1)) {x x' : Nat} {b : Box} (h : CharBox i x b)
    (hx : x' ≤ x + left) (hb : ∀ c, x' ≤ c → c < x + left → BlankCol i' c) : CharBox i' x' (movedBox left top b) where
  wpos := h.wpos
  hpos := h.hpos
  left := by have := h.left; show x' ≤ b.x + left; omega
  right := by have := h.right; have := m.wide; show b.x + left + b.w ≤ _; omega
  bottom := by have := h.bottom; have := m.high; show b.y + top + b.h ≤ _; omega
  before := by
    intro c h1 h2
    have h2 : c < b.x + left := h2
    by_cases hc : c < x + left
    · exact hb c h1 hc
    · rw [show c = c - left + left by omega, m.blank]
      exact h.before _ (by omega) (by omega)
  covers := by
    intro c y h1 h2 hl
    have h1 : b.x + left ≤ c := h1
    have h2 : c < b.x + left + b.w := h2
    have o := m.outside _ _ hl
    rw [show c = c - left + left by omega, show y = y - top + top by omega] at hl ⊢
    rw [m.letter_eq] at hl
    rw [inBox_moved]
    exact h.covers _ _ (by omega) (by omega) hl
  tightLeft := by
    obtain ⟨y, h1, h2⟩ := h.tightLeft
    exact ⟨y + top, inBox_moved.2 h1, by show letter i' (b.x + left) (y + top) = true; rw [m.letter_eq]; exact h2⟩
  tightTop := by
    obtain ⟨c, h1, h2⟩ := h.tightTop
    exact ⟨c + left, inBox_moved.2 h1, by show letter i' (c + left) (b.y + top) = true; rw [m.letter_eq]; exact h2⟩
  tightBottom := by
    obtain ⟨c, h1, h2⟩ := h.tightBottom
    have hp := h.hpos
    have e : (movedBox left top b).y + (movedBox left top b).h - 1 = b.y + b.h - 1 + top := by
      show b.y + top + b.h - 1 = _
      omega
    rw [e]
    exact ⟨c + left, inBox_moved.2 h1, by rw [m.letter_eq]; exact h2⟩
  run := by
    intro c h1 h2
    have h1 : b.x + left ≤ c := h1
    have h2 : c + 1 < b.x + left + b.w := h2
    rw [show c = c - left + left by omega, m.joined]
    exact h.run _ (by omega) (by omega)
  maximal := by
    intro hlt
    have hlt : b.x + left + b.w + 1 < i'.bounds.w := hlt
    have hw := h.wpos
    have hn := h.notLast
    rw [show (movedBox left top b).x + (movedBox left top b).w - 1 = b.x + b.w - 1 + left by
      show b.x + left + b.w - 1 = _
      omega, m.joined]
    by_cases hc : b.x + b.w + 1 < i.bounds.w
    · exact h.maximal hc
    · rcases hr with hr | hr
      · omega
      · rintro ⟨y, y', _, h2, _⟩
        rw [show b.x + b.w - 1 + 1 = i.bounds.w - 1 by omega, hr] at h2
        cases h2
  notLast := by have := h.notLast; have := m.wide; show b.x + left + b.w < _; omega

/-- Both images give a box, moved, or neither does, or the assertion fails for both. -/
theorem Spec.Margins.nextBox (m : Margins left top i i')
    (hr : i'.bounds.w = left + i.bounds.w ∨ BlankCol i (i.bounds.w - 1)) (wf : i.WF) (wf' : i'.WF) (hp : 0 < i.bounds.h)
    (hh : RowsHeld i i')
    (hs : i.bounds.w * i.bounds.h + i.bounds.w ≤ W32) (hs' : i'.bounds.w * i'.bounds.h + i'.bounds.w ≤ W32) {x x' : Nat}
    (hx : x < i.bounds.w) (hx' : x' ≤ x + left) (hb : ∀ c, x' ≤ c → c < x + left → BlankCol i' c) :
    (∃ b, makeBox i x 0 i.bounds = .ok b ∧ b.truthy = true ∧ CharBox i x b ∧
      makeBox i' x' 0 i'.bounds = .ok (movedBox left top b)) ∨
    (∃ b b', makeBox i x 0 i.bounds = .ok b ∧ b.truthy = false ∧ makeBox i' x' 0 i'.bounds = .ok b' ∧ b'.truthy = false) ∨
    (makeBox i x 0 i.bounds = .abort ∧ makeBox i' x' 0 i'.bounds = .abort) := by
  have hw := m.wide
  have hh' := m.high
  have key : ∀ {j : Image} {x0 : Nat} {b : Box}, CharBox j x0 b → ¬ ∀ c, x0 ≤ c → c + 1 < j.bounds.w → BlankCol j c := by
    intro j x0 b hc h
    obtain ⟨y, _, hl⟩ := hc.tightLeft
    have := hc.notLast
    have := hc.wpos
    rw [h b.x hc.left (by omega) y] at hl
    cases hl
  have bc : ∀ c, x' ≤ c → (c < x + left ∨ left + i.bounds.w ≤ c ∨ BlankCol i (c - left)) → BlankCol i' c := by
    intro c c1 c2
    by_cases hc : c < x + left
    · exact hb c c1 hc
    · by_cases hc2 : left + i.bounds.w ≤ c
      · exact m.blank_right hc2
      · rw [show c = c - left + left by omega, m.blank]
        rcases c2 with c2 | c2 | c2
        · omega
        · omega
        · exact c2
  rcases makeBox_ok wf hx hp hs with ⟨b, h1, h2, h3⟩ | ⟨b, h1, h2, h3, h5⟩ | ⟨h1, h2, h3⟩
  · have hm := m.charBox hr h3 hx' hb
    rcases makeBox_ok wf' (x0 := x') (by omega) (by omega) hs' with ⟨b', k1, _, k3⟩ | ⟨b', _, _, k3, _⟩ | ⟨_, _, k3⟩
    · rw [charBox_unique k3 hm] at k1
      exact .inl ⟨b, h1, h2, h3, k1⟩
    · exact absurd k3 (key hm)
    · exact absurd (fun c c1 c2 => k3 c c1 (by omega)) (key hm)
  · rcases makeBox_ok wf' (x0 := x') (by omega) (by omega) hs' with ⟨b', _, _, k3⟩ | ⟨b', k1, k2, _, _⟩ | ⟨_, k2, k3⟩
    · refine absurd ?_ (key k3)
      intro c c1 c2
      apply bc c c1
      by_cases hc3 : c - left + 1 < i.bounds.w
      · by_cases hc : c < x + left
        · exact .inl hc
        · exact .inr (.inr (h3 _ (by omega) hc3))
      · by_cases hc2 : left + i.bounds.w ≤ c
        · exact .inr (.inl hc2)
        · rcases hr with hr | hr
          · omega
          · rw [show c - left = i.bounds.w - 1 by omega]
            exact .inr (.inr hr)
    · exact .inr (.inl ⟨b, b', h1, h2, k1, k2⟩)
    · exfalso
      rcases h5 with h5 | h5
      · omega
      · apply h5
        rw [← m.blank]
        exact k3 _ (by omega) (by omega)
  · have hb' : ∀ c, x' ≤ c → c < i'.bounds.w → BlankCol i' c := by
      intro c c1 c2
      apply bc c c1
      by_cases hc : c < x + left
      · exact .inl hc
      · by_cases hc2 : left + i.bounds.w ≤ c
        · exact .inr (.inl hc2)
        · exact .inr (.inr (h3 _ (by omega) (by omega)))
    have h1r : i'.bounds.h = 1 := by
      rcases hh with hh | hh | hh
      · omega
      · exact absurd (h3 _ (by omega) (by omega)) hh
      · exact hh
    rcases makeBox_ok wf' (x0 := x') (by omega) (by omega) hs' with ⟨b', _, _, k3⟩ | ⟨b', _, _, _, k4⟩ | ⟨k1, _, _⟩
    · exact absurd (fun c c1 c2 => hb' c c1 (by omega)) (key k3)
    · exfalso
      rcases k4 with k4 | k4
      · omega
      · exact k4 (hb' _ (by omega) (by omega))
    · exact .inr (.inr ⟨h1, k1⟩)

/-! ### Pictures -/

theorem copyTo_same {src src' : List Pixel} : ∀ (n d d' : Nat) (o : Out Pixel),
    (∀ k, k < n → src'[d' + k]? = src[d + k]?) → copyTo src' d' n o = copyTo src d n o
  | 0, _, _, _, _ => rfl
  | n + 1, d, d', o, h => by
    have e : rd src' d' = rd src d := by
      have := h 0 (by omega)
      unfold rd
      rw [Nat.add_zero, Nat.add_zero] at this
      rw [this]
    unfold copyTo
    rw [e]
    congr 1
    funext v
    congr 1
    funext o
    apply copyTo_same
    intro k hk
    have := h (k + 1) (by omega)
    rw [show d' + 1 + k = d' + (k + 1) by omega, show d + 1 + k = d + (k + 1) by omega]
    exact this

theorem sectionRows_same {src src' : List Pixel} (st st' w : Nat) : ∀ (n d d' : Nat) (o : Out Pixel),
    (∀ r k, r < n → k < w → src'[d' + r * st' + k]? = src[d + r * st + k]?) →
    sectionRows src' st' w n d' o = sectionRows src st w n d o
  | 0, _, _, _, _ => rfl
  | n + 1, d, d', o, h => by
    unfold sectionRows
    rw [copyTo_same w d d' o fun k hk => by simpa using h 0 k (by omega) hk]
    congr 1
    funext o
    apply sectionRows_same
    intro r k hr hk
    have := h (r + 1) k (by omega) hk
    rw [Nat.add_mul, Nat.add_mul, Nat.one_mul, Nat.one_mul] at this
    rw [show d' + st' + r * st' + k = d' + (r * st' + st') + k by omega,
      show d + st + r * st + k = d + (r * st + st) + k by omega]
    exact this

/-- The pixels of a box are the same. -/
theorem Spec.Margins.pixels (m : Margins left top i i') (wf : i.WF) (wf' : i'.WF) {b : Box} (hw : 0 < b.w) (hh : 0 < b.h)
    (hx : b.x + b.w ≤ i.bounds.w) (hy : b.y + b.h ≤ i.bounds.h) (o : Out Pixel) :
    sectionInto i' o (b.x + left) (b.y + top) b.bounds = sectionInto i o b.x b.y b.bounds := by
  have h1 := m.wide
  have h2 := m.high
  unfold sectionInto
  rw [dataAt_eq wf (by omega) (by omega), dataAt_eq wf' (by omega) (by omega), Res.ok_bind, Res.ok_bind]
  apply sectionRows_same
  intro r k hr hk
  have hr : r < b.h := hr
  have hk : k < b.w := hk
  have := m.inside (b.x + k) (b.y + r) (by omega) (by omega)
  rw [pix_eq (by omega) (by omega), pix_eq (by omega) (by omega)] at this
  rw [show (b.y + top) * i'.bounds.w + (b.x + left) + r * i'.bounds.w + k =
      (b.y + r + top) * i'.bounds.w + (b.x + k + left) by simp only [Nat.add_mul]; omega,
    show b.y * i.bounds.w + b.x + r * i.bounds.w + k = (b.y + r) * i.bounds.w + (b.x + k) by simp only [Nat.add_mul]; omega]
  exact this

end

/-! ### The loop over the letters -/

section
variable {P : Type} [Dbl P]

/-- The same state with the boxes moved. -/
def movedLine (left top : Nat) (l : Line P) : Line P := { l with boxes := l.boxes.map (movedBox left top) }

theorem newLetter_moved (left top : Nat) (s : Setup P) (g : RGlyphs) (l : Line P) :
    newLetter s g (movedLine left top l) = newLetter s g l >>= fun r => .ok (movedLine left top r) := by
  unfold newLetter movedLine
  simp only [Res.bind_assoc, Res.pure_eq, Res.ok_bind]

theorem lookLetter_moved (left top : Nat) (s : Setup P) (g : RGlyphs) (l : Line P) :
    lookLetter s g (movedLine left top l) = lookLetter s g l >>= fun r => .ok (movedLine left top r) := by
  unfold lookLetter
  show (l.ctx.img.view l.heap >>= fun img => cacheFind img l.cache >>= _) = _
  simp only [Res.bind_assoc]
  congr 1
  funext img
  congr 1
  funext hit
  cases hit with
  | some r => simp only [Res.pure_eq, Res.ok_bind]; rfl
  | none => exact newLetter_moved left top s g l

theorem lookLetter_boxes {s : Setup P} {g : RGlyphs} {l r : Line P} (h : lookLetter s g l = .ok r) : r.boxes = l.boxes := by
  unfold lookLetter at h
  obtain ⟨img, _, h⟩ := Res.bind_eq_ok.1 h
  obtain ⟨hit, _, h⟩ := Res.bind_eq_ok.1 h
  cases hit with
  | some k => cases h; rfl
  | none =>
    simp only at h
    unfold newLetter at h
    obtain ⟨a1, _, h⟩ := Res.bind_eq_ok.1 h
    obtain ⟨a2, _, h⟩ := Res.bind_eq_ok.1 h
    obtain ⟨a3, _, h⟩ := Res.bind_eq_ok.1 h
    obtain ⟨a4, _, h⟩ := Res.bind_eq_ok.1 h
    obtain ⟨a5, _, h⟩ := Res.bind_eq_ok.1 h
    obtain ⟨a6, _, h⟩ := Res.bind_eq_ok.1 h
    obtain ⟨a7, _, h⟩ := Res.bind_eq_ok.1 h
    cases h
    rfl

theorem lineLoop_boxes {s : Setup P} {g : RGlyphs} {i : Image} : ∀ (fuel x : Nat) (l r : Line P),
    lineLoop s g i fuel x l = .ok r → ∃ bs, segmentFrom i fuel x = .ok bs ∧ r.boxes = l.boxes ++ bs
  | 0, _, _, _, h => by simp [lineLoop] at h
  | fuel + 1, x, l, r, h => by
    unfold lineLoop at h
    obtain ⟨b, hb, h⟩ := Res.bind_eq_ok.1 h
    unfold segmentFrom
    rw [hb, Res.ok_bind]
    by_cases ht : b.truthy = true
    · rw [if_pos ht] at h ⊢
      obtain ⟨l1, h1, h⟩ := Res.bind_eq_ok.1 h
      obtain ⟨bs, e, e2⟩ := lineLoop_boxes fuel _ _ _ h
      rw [e, Res.ok_bind]
      refine ⟨b :: bs, rfl, ?_⟩
      unfold letterStep at h1
      obtain ⟨c, _, h1⟩ := Res.bind_eq_ok.1 h1
      obtain ⟨l2, h2, h1⟩ := Res.bind_eq_ok.1 h1
      cases h1
      rw [e2]
      simp only [lookLetter_boxes h2, List.append_assoc, List.singleton_append]
    · rw [if_neg ht] at h ⊢
      cases h
      exact ⟨[], rfl, by simp⟩

variable {left top : Nat} {i i' : Image}

theorem letterStep_moved (m : Margins left top i i') (wf : i.WF) (wf' : i'.WF) (s : Setup P) (g : RGlyphs) {x x' : Nat}
    {b : Box} (hw : 0 < b.w) (hh : 0 < b.h) (hx : b.x + b.w ≤ i.bounds.w) (hy : b.y + b.h ≤ i.bounds.h)
    (hg : uadd x' 4 < b.x + left ↔ uadd x 4 < b.x) (l : Line P) :
    letterStep s g i' x' (movedBox left top b) (movedLine left top l) =
      letterStep s g i x b l >>= fun r => .ok (movedLine left top r) := by
  unfold letterStep
  have e : (fun o => sectionInto i' o (movedBox left top b).x (movedBox left top b).y (movedBox left top b).bounds) =
      fun o => sectionInto i o b.x b.y b.bounds := by
    funext o
    exact m.pixels wf wf' hw hh hx hy o
  rw [e]
  simp only [Res.bind_assoc]
  show (l.ctx.doImg l.heap b.bounds _ >>= _) = _
  congr 1
  funext hc
  have e2 : (if uadd x' 4 < (movedBox left top b).x then (movedLine left top l).spaces ++ [(movedLine left top l).nth]
      else (movedLine left top l).spaces) = if uadd x 4 < b.x then l.spaces ++ [l.nth] else l.spaces := by
    show (if uadd x' 4 < b.x + left then l.spaces ++ [l.nth] else l.spaces) = _
    by_cases h : uadd x 4 < b.x
    · rw [if_pos h, if_pos (hg.2 h)]
    · rw [if_neg h, if_neg fun k => h (hg.1 k)]
  rw [e2]
  have := lookLetter_moved left top s g
    { l with heap := hc.1, ctx := hc.2, nth := uadd l.nth 1
             spaces := if uadd x 4 < b.x then l.spaces ++ [l.nth] else l.spaces }
  simp only [movedLine] at this ⊢
  rw [this, Res.bind_assoc]
  congr 1
  funext r
  simp only [Res.ok_bind, Res.pure_eq, List.map_append, List.map_cons, List.map_nil]

theorem lineLoop_moved (m : Margins left top i i') (hr : i'.bounds.w = left + i.bounds.w ∨ BlankCol i (i.bounds.w - 1))
    (wf : i.WF) (wf' : i'.WF) (hp : 0 < i.bounds.h) (hh : RowsHeld i i') (hs : i.bounds.w * i.bounds.h + i.bounds.w ≤ W32)
    (hs' : i'.bounds.w * i'.bounds.h + i'.bounds.w ≤ W32) (h4 : i'.bounds.w + 4 < W32) (s : Setup P) (g : RGlyphs) :
    ∀ (fuel fuel' x x' : Nat) (l : Line P), i.bounds.w < fuel + x → i'.bounds.w < fuel' + x' → x < i.bounds.w →
      x' ≤ x + left → (∀ c, x' ≤ c → c < x + left → BlankCol i' c) →
      (∀ b, CharBox i x b → (x' + 4 < b.x + left ↔ x + 4 < b.x)) →
      lineLoop s g i' fuel' x' (movedLine left top l) =
        lineLoop s g i fuel x l >>= fun r => .ok (movedLine left top r) := by
  intro fuel
  induction fuel with
  | zero => intro fuel' x x' l h; omega
  | succ fuel ih =>
    intro fuel' x x' l h1 h2 hx hx' hb hg
    have hwd := m.wide
    obtain ⟨f, rfl⟩ : ∃ f, fuel' = f + 1 := ⟨fuel' - 1, by omega⟩
    unfold lineLoop
    rcases m.nextBox hr wf wf' hp hh hs hs' hx hx' hb with ⟨b, e, ht, hc, e'⟩ | ⟨b, b', e, ht, e', ht'⟩ | ⟨e, e'⟩
    · have ht' : (movedBox left top b).truthy = true := ht
      have hp := hc.wpos
      have hl := hc.left
      have hn := hc.notLast
      rw [e, e', Res.ok_bind, Res.ok_bind, if_pos ht, if_pos ht',
        letterStep_moved m wf wf' s g (x := x) hc.wpos hc.hpos hc.right hc.bottom (by
          rw [uadd_eq (by omega), uadd_eq (by omega)]
          exact hg b hc), Res.bind_assoc, Res.bind_assoc]
      congr 1
      funext r
      rw [Res.ok_bind]
      have ex : uadd b.x b.w = b.x + b.w := uadd_eq (by omega)
      have ex' : uadd (movedBox left top b).x (movedBox left top b).w = b.x + b.w + left := by
        show uadd (b.x + left) b.w = _
        rw [uadd_eq (by omega)]
        omega
      rw [ex, ex']
      exact ih f (b.x + b.w) (b.x + b.w + left) r (by omega) (by omega) (by omega) (by omega)
        (by intro c _ _; omega) (by intro c _; omega)
    · rw [e, e', Res.ok_bind, Res.ok_bind, if_neg (by rw [ht']; decide), if_neg (by rw [ht]; decide)]
      rfl
    · rw [e, e']
      rfl

end

/-! ### The line filter -/

theorem res_bind_congr {α β : Type} {r : Res α} {f g : α → Res β} (h : ∀ a, f a = g a) : (r >>= f) = r >>= g := by
  rw [funext h]

theorem res_bind_congr_ok {α β : Type} {r : Res α} {f g : α → Res β} (h : ∀ a, r = .ok a → f a = g a) :
    (r >>= f) = r >>= g := by
  cases r with
  | ok a => exact h a rfl
  | _ => rfl

theorem linePred_moved (flags t : Nat) {y p : Nat} (hy : y + t + 1 < W32) (hp : p + t + 1 < W32) :
    linePred flags (y + t) (p + t) = linePred flags y p := by
  unfold linePred
  rw [uadd_eq (by omega), uadd_eq (by omega), uadd_eq (by omega), uadd_eq (by omega)]
  have e1 : (if y + t < p + t then usub (p + t) (y + t) else usub (y + t) (p + t)) = if y < p then usub p y else usub y p := by
    by_cases h : y < p
    · rw [if_pos h, if_pos (by omega), usub_eq (by omega) (by omega), usub_eq (by omega) (by omega)]
      omega
    · rw [if_neg h, if_neg (by omega), usub_eq (by omega) (by omega), usub_eq (by omega) (by omega)]
      omega
  rw [e1]
  split <;> first | rfl | (congr 1; apply propext; omega)

theorem linePred_self (flags : Nat) {y p : Nat} (hy : y + 1 < W32) (hp : p + 1 < W32) :
    linePred flags y y = linePred flags p p := by
  have h1 := linePred_moved flags y (y := 0) (p := 0) (by omega) (by omega)
  have h2 := linePred_moved flags p (y := 0) (p := 0) (by omega) (by omega)
  rw [Nat.zero_add] at h1 h2
  rw [h1, h2]

theorem wordPred_congr (infos : List WordInfo) (field : WordLines → Nat) {y p y' p' : Nat}
    (h : ∀ flags, linePred flags y p = linePred flags y' p') : wordPred infos field y p = wordPred infos field y' p' := by
  funext v
  unfold wordPred
  simp only [h]

/-- What is known about a box of a line. -/
def Fits (t : Nat) (b : Box) : Prop := 0 < b.h ∧ b.y + b.h + t < W32

theorem bottom_eq {t : Nat} {b : Box} (h : Fits t b) : b.bottom = b.y + b.h - 1 := by
  have h1 := h.1
  have h2 := h.2
  unfold Box.bottom
  rw [uadd_eq (by omega), usub_eq (by omega) (by omega)]

theorem bottom_moved {left t : Nat} {b : Box} (h : Fits t b) : (movedBox left t b).bottom = b.bottom + t := by
  have h1 := h.1
  have h2 := h.2
  rw [bottom_eq h, bottom_eq (t := 0) (b := movedBox left t b) ⟨h1, by show b.y + t + b.h + 0 < _; omega⟩]
  show b.y + t + b.h - 1 = _
  omega

theorem basePass_moved (infos : List WordInfo) (left t : Nat) {baseline minTop : Nat} (hbl : baseline + t + 1 < W32)
    (hmt : minTop + t < W32) :
    ∀ (l : List (Nat × Box)) (st : List (List View)) (map : List Nat) (has : Bool),
      (∀ p ∈ l, Fits t p.2 ∧ minTop ≤ p.2.y) →
      basePass infos (baseline + t) (minTop + t) (l.map fun p => (p.1, movedBox left t p.2)) st map has =
        basePass infos baseline minTop l st map has
  | [], _, _, _, _ => rfl
  | (r, b) :: l, st, map, has, h => by
    obtain ⟨hf, hy⟩ : Fits t b ∧ minTop ≤ b.y := h (r, b) (by simp)
    have h1 := hf.1
    have h2 := hf.2
    simp only [List.map_cons]
    unfold basePass
    refine res_bind_congr fun vec => ?_
    have hb := bottom_eq hf
    rw [bottom_moved hf, wordPred_congr infos WordLines.base
      (fun flags => linePred_moved flags t (y := b.bottom) (p := baseline) (by omega) hbl)]
    refine res_bind_congr fun vn => ?_
    obtain ⟨vec1, n1⟩ := vn
    have ec : ∀ n, countMean infos (minTop + t) (movedBox left t b) vec1 n map has = countMean infos minTop b vec1 n map has := by
      intro n
      have : usub (movedBox left t b).y (minTop + t) = usub b.y minTop := by
        show usub (b.y + t) _ = _
        rw [usub_eq (by omega) (by omega), usub_eq (by omega) (by omega)]
        omega
      unfold countMean
      rw [this]
    dsimp only
    rw [ec]
    refine res_bind_congr fun mh => ?_
    exact basePass_moved infos left t hbl hmt l _ _ _ fun p hp => h p (by simp [hp])

theorem meanPass_moved (infos : List WordInfo) (left t : Nat) {meanline : Nat} (hm : meanline + t + 1 < W32) :
    ∀ (l : List (Nat × Box)) (st : List (List View)), (∀ p ∈ l, Fits t p.2) →
      meanPass infos (meanline + t) (l.map fun p => (p.1, movedBox left t p.2)) st = meanPass infos meanline l st
  | [], _, _ => rfl
  | (r, b) :: l, st, h => by
    have hf : Fits t b := h (r, b) (by simp)
    have h1 := hf.1
    have h2 := hf.2
    simp only [List.map_cons]
    unfold meanPass
    refine res_bind_congr fun vec => ?_
    rw [show (movedBox left t b).y = b.y + t from rfl, wordPred_congr infos WordLines.mean
      (fun flags => linePred_moved flags t (y := b.y) (p := meanline) (by omega) hm)]
    refine res_bind_congr fun vn => ?_
    exact meanPass_moved infos left t hm l _ fun p hp => h p (by simp [hp])

theorem bumpBottoms_moved (left t lo : Nat) : ∀ (bs : List Box) (ys : List Nat),
    (∀ b ∈ bs, Fits t b ∧ lo ≤ b.bottom) →
    bumpBottoms (lo + t) (bs.map (movedBox left t)) ys = bumpBottoms lo bs ys
  | [], _, _ => rfl
  | b :: bs, ys, h => by
    obtain ⟨hf, hl⟩ := h b (by simp)
    have h1 := hf.1
    have h2 := hf.2
    have hb := bottom_eq hf
    rw [List.map_cons]
    unfold bumpBottoms
    rw [bottom_moved hf, show usub (b.bottom + t) (lo + t) = usub b.bottom lo by
      rw [usub_eq (by omega) (by omega), usub_eq (by omega) (by omega)]; omega]
    refine res_bind_congr fun ys => ?_
    exact bumpBottoms_moved left t lo bs ys fun b hb => h b (by simp [hb])

theorem bumpBottoms_length {lo : Nat} : ∀ (bs : List Box) (ys zs : List Nat), bumpBottoms lo bs ys = .ok zs →
    zs.length = ys.length
  | [], _, _, h => by cases h; rfl
  | b :: bs, ys, zs, h => by
    unfold bumpBottoms bumpAt at h
    rw [Res.bind_assoc] at h
    obtain ⟨n, _, h⟩ := Res.bind_eq_ok.1 h
    rw [Res.pure_eq, Res.ok_bind] at h
    rw [bumpBottoms_length bs _ _ h, List.length_set]

theorem foldl_min_add (t : Nat) : ∀ (l : List Nat) (a : Nat), (l.map (· + t)).foldl min (a + t) = l.foldl min a + t
  | [], _ => rfl
  | b :: l, a => by
    rw [List.map_cons, List.foldl_cons, List.foldl_cons, show min (a + t) (b + t) = min a b + t by omega]
    exact foldl_min_add t l _

theorem foldl_max_add (t : Nat) : ∀ (l : List Nat) (a : Nat), (l.map (· + t)).foldl max (a + t) = l.foldl max a + t
  | [], _ => rfl
  | b :: l, a => by
    rw [List.map_cons, List.foldl_cons, List.foldl_cons, show max (a + t) (b + t) = max a b + t by omega]
    exact foldl_max_add t l _

theorem foldl_max_zero (t : Nat) {l : List Nat} (h : l ≠ []) : (l.map (· + t)).foldl max 0 = l.foldl max 0 + t := by
  cases l with
  | nil => exact absurd rfl h
  | cons b l =>
    rw [List.map_cons, List.foldl_cons, List.foldl_cons, Nat.zero_max, Nat.zero_max]
    exact foldl_max_add t l b

theorem foldl_min_le : ∀ (l : List Nat) (a : Nat), l.foldl min a ≤ a ∧ ∀ b ∈ l, l.foldl min a ≤ b
  | [], _ => ⟨Nat.le_refl _, by simp⟩
  | c :: l, a => by
    obtain ⟨h1, h2⟩ := foldl_min_le l (min a c)
    rw [List.foldl_cons]
    refine ⟨by omega, ?_⟩
    intro b hb
    rcases List.mem_cons.1 hb with rfl | hb
    · omega
    · exact h2 b hb

theorem foldl_max_le {k : Nat} : ∀ (l : List Nat) (a : Nat), a ≤ k → (∀ b ∈ l, b ≤ k) → l.foldl max a ≤ k
  | [], _, h, _ => h
  | c :: l, a, h, hl => by
    rw [List.foldl_cons]
    exact foldl_max_le l _ (by have := hl c (by simp); omega) fun b hb => hl b (by simp [hb])

theorem le_foldl_max : ∀ (l : List Nat) (a : Nat), a ≤ l.foldl max a ∧ ∀ b ∈ l, b ≤ l.foldl max a
  | [], _ => ⟨Nat.le_refl _, by simp⟩
  | c :: l, a => by
    obtain ⟨h1, h2⟩ := le_foldl_max l (max a c)
    rw [List.foldl_cons]
    refine ⟨by omega, ?_⟩
    intro b hb
    rcases List.mem_cons.1 hb with rfl | hb
    · omega
    · exact h2 b hb

theorem maxIndex_lt {l : List Nat} (h : l ≠ []) : maxIndex l < l.length := by
  obtain ⟨m, h, _⟩ := maxIndex_ok l h
  exact (List.getElem?_eq_some_iff.1 h).1

/-- The line filter behind its assertion and its extreme rows. -/
def lineFilter (infos : List WordInfo) (m : MinMax) (boxes : List Box) (refs : List Nat) (st : List (List View)) :
    Res (List (List View)) := do
  let ys ← bumpBottoms m.minBottom boxes (List.replicate m.bufLen 0)
  let (st, map, has) ← basePass infos (uadd (maxIndex (ys.take m.bottomLen)) m.minBottom) m.minTop (refs.zip boxes) st
    (zeroFirst (min m.bottomLen m.topLen) ys) false
  meanIf infos m (refs.zip boxes) st map has

theorem filterByLines_cons (infos : List WordInfo) (b : Box) (bs : List Box) (refs : List Nat) (st : List (List View)) :
    filterByLines infos (b :: bs) refs st =
      (assert (decide ((b :: bs).length = refs.length)) >>= fun _ => lineFilter infos (minMaxBox b bs) (b :: bs) refs st) := rfl

/-- The line filter on a line of several letters: only the place of the letters relative to one another counts. -/
theorem filterByLines_moved (infos : List WordInfo) (left t : Nat) (boxes : List Box) (refs : List Nat)
    (st : List (List View)) (h1 : boxes.length ≠ 1) (hf : ∀ b ∈ boxes, Fits (t + 1) b) :
    filterByLines infos (boxes.map (movedBox left t)) refs st = filterByLines infos boxes refs st := by
  have hf' : ∀ b ∈ boxes, Fits t b := fun b hb => ⟨(hf b hb).1, by have := (hf b hb).2; omega⟩
  cases boxes with
  | nil => rfl
  | cons b bs =>
    have hne : bs ≠ [] := by
      rintro rfl
      exact h1 rfl
    rw [List.map_cons, filterByLines_cons, filterByLines_cons, ← List.map_cons, List.length_map]
    refine res_bind_congr fun _ => ?_
    have eb : (bs.map (movedBox left t)).map Box.bottom = (bs.map Box.bottom).map (· + t) := by
      rw [List.map_map, List.map_map]
      apply List.map_congr_left
      intro c hc
      rw [Function.comp_apply, Function.comp_apply, bottom_moved (hf' c (by simp [hc]))]
    have ey : (bs.map (movedBox left t)).map Box.y = (bs.map Box.y).map (· + t) := by
      rw [List.map_map, List.map_map]
      rfl
    have em : minMaxBox (movedBox left t b) (bs.map (movedBox left t)) =
        ⟨(minMaxBox b bs).minTop + t, (minMaxBox b bs).maxTop + t, (minMaxBox b bs).minBottom + t,
          (minMaxBox b bs).maxBottom + t⟩ := by
      rw [minMaxBox_eq, minMaxBox_eq, eb, ey, bottom_moved (hf' b (by simp)), show (movedBox left t b).y = b.y + t from rfl,
        foldl_min_add, foldl_min_add, foldl_max_zero t (by simpa using hne), foldl_max_zero t (by simpa using hne)]
    have hm := minMaxBox_eq b bs
    generalize minMaxBox b bs = m at em hm
    rw [em]
    obtain ⟨c, hc⟩ := List.exists_mem_of_ne_nil _ hne
    have y1 := foldl_min_le (bs.map Box.y) b.y
    have y2 := le_foldl_max (bs.map Box.y) 0
    have b1 := foldl_min_le (bs.map Box.bottom) b.bottom
    have b2 := le_foldl_max (bs.map Box.bottom) 0
    have y3 : (bs.map Box.y).foldl max 0 + t + 1 < W32 := by
      have := foldl_max_le (k := W32 - t - 2) (bs.map Box.y) 0 (by omega) (by
        intro k hk
        obtain ⟨d, hd, rfl⟩ := List.mem_map.1 hk
        have := hf d (by simp [hd])
        have := this.1
        have := (hf d (by simp [hd])).2
        omega)
      have := (hf b (by simp)).2
      have := (hf b (by simp)).1
      omega
    have b3 : (bs.map Box.bottom).foldl max 0 + t + 1 < W32 := by
      have := foldl_max_le (k := W32 - t - 2) (bs.map Box.bottom) 0 (by omega) (by
        intro k hk
        obtain ⟨d, hd, rfl⟩ := List.mem_map.1 hk
        have h3 := hf d (by simp [hd])
        rw [bottom_eq h3]
        have := h3.1
        have := h3.2
        omega)
      have := (hf b (by simp)).2
      have := (hf b (by simp)).1
      omega
    have y4 := y1.2 c.y (List.mem_map_of_mem hc)
    have y5 := y2.2 c.y (List.mem_map_of_mem hc)
    have b4 := b1.2 c.bottom (List.mem_map_of_mem hc)
    have b5 := b2.2 c.bottom (List.mem_map_of_mem hc)
    have minTop : m.minTop ≤ m.maxTop := by rw [hm]; simp only; omega
    have maxTop : m.maxTop + t + 1 < W32 := by rw [hm]; exact y3
    have minBot : m.minBottom ≤ m.maxBottom := by rw [hm]; simp only; omega
    have maxBot : m.maxBottom + t + 1 < W32 := by rw [hm]; exact b3
    have tops : ∀ d ∈ b :: bs, m.minTop ≤ d.y := by
      intro d hd
      rw [hm]
      rcases List.mem_cons.1 hd with rfl | hd
      · exact y1.1
      · exact y1.2 _ (List.mem_map_of_mem hd)
    have bots : ∀ d ∈ b :: bs, m.minBottom ≤ d.bottom := by
      intro d hd
      rw [hm]
      rcases List.mem_cons.1 hd with rfl | hd
      · exact b1.1
      · exact b1.2 _ (List.mem_map_of_mem hd)
    have lenB : m.bottomLen = m.maxBottom - m.minBottom + 1 := by
      unfold MinMax.bottomLen
      rw [usub_eq (by omega) (by omega), uadd_eq (by omega)]
    have lenT : m.topLen = m.maxTop - m.minTop + 1 := by
      unfold MinMax.topLen
      rw [usub_eq (by omega) (by omega), uadd_eq (by omega)]
    have lenB' : MinMax.bottomLen ⟨m.minTop + t, m.maxTop + t, m.minBottom + t, m.maxBottom + t⟩ = m.bottomLen := by
      rw [lenB]
      unfold MinMax.bottomLen
      simp only
      rw [usub_eq (by omega) (by omega), uadd_eq (by omega)]
      omega
    have lenT' : MinMax.topLen ⟨m.minTop + t, m.maxTop + t, m.minBottom + t, m.maxBottom + t⟩ = m.topLen := by
      rw [lenT]
      unfold MinMax.topLen
      simp only
      rw [usub_eq (by omega) (by omega), uadd_eq (by omega)]
      omega
    have buf : MinMax.bufLen ⟨m.minTop + t, m.maxTop + t, m.minBottom + t, m.maxBottom + t⟩ = m.bufLen := by
      unfold MinMax.bufLen
      rw [lenB', lenT']
    unfold lineFilter
    dsimp only
    rw [buf, lenB', lenT', bumpBottoms_moved left t m.minBottom (b :: bs) _ fun d hd => ⟨hf' d hd, bots d hd⟩]
    have ez : refs.zip ((b :: bs).map (movedBox left t)) = (refs.zip (b :: bs)).map fun p => (p.1, movedBox left t p.2) := by
      rw [List.zip_map_right]
      rfl
    have hz : ∀ p ∈ refs.zip (b :: bs), p.2 ∈ b :: bs := fun p hp => (List.of_mem_zip (a := p.1) (b := p.2) hp).2
    refine res_bind_congr_ok fun ys ey => ?_
    have hyl := bumpBottoms_length _ _ _ ey
    rw [List.length_replicate] at hyl
    have htk : (ys.take m.bottomLen).length = m.bottomLen := by
      rw [List.length_take, hyl]
      unfold MinMax.bufLen
      omega
    have hmi : maxIndex (ys.take m.bottomLen) < m.bottomLen := by
      refine Nat.lt_of_lt_of_eq (maxIndex_lt ?_) htk
      intro e
      rw [e] at htk
      simp only [List.length_nil] at htk
      omega
    rw [uadd_eq (by omega), uadd_eq (by omega), ← Nat.add_assoc, ez,
      basePass_moved infos left t (by omega) (by omega) _ _ _ _ fun p hp => ⟨hf' _ (hz p hp), tops _ (hz p hp)⟩]
    refine res_bind_congr_ok fun r _ => ?_
    obtain ⟨st1, map1, has1⟩ := r
    dsimp only
    unfold meanIf
    cases has1 with
    | false => rfl
    | true =>
      simp only [if_true]
      rw [lenT']
      have hmt : maxIndex (map1.take m.topLen) < m.topLen := by
        by_cases hn : map1.take m.topLen = []
        · rw [hn]
          show 0 < _
          omega
        · exact Nat.lt_of_lt_of_le (maxIndex_lt hn) (by rw [List.length_take]; omega)
      rw [uadd_eq (by omega), uadd_eq (by omega), ← Nat.add_assoc,
        meanPass_moved infos left t (by omega) _ _ fun p hp => hf' _ (hz p hp)]

/-! ### A line of one letter -/

theorem maxIndexFrom_zeros (c : Nat) : ∀ (n k : Nat), maxIndexFrom c 0 k (List.replicate n 0) = 0
  | 0, _ => rfl
  | n + 1, k => by
    rw [List.replicate_succ, maxIndexFrom, if_neg (by omega)]
    exact maxIndexFrom_zeros c n (k + 1)

theorem maxIndex_zeros (c n k : Nat) : maxIndex ((c :: List.replicate n 0).take k) = 0 := by
  cases k with
  | zero => rfl
  | succ k =>
    rw [List.take_succ_cons, List.take_replicate]
    exact maxIndexFrom_zeros c _ 1

theorem zeroFirst_one (j n : Nat) (h : j ≤ n + 1) :
    ∃ c, zeroFirst j (1 :: List.replicate n 0) = c :: List.replicate n 0 := by
  unfold zeroFirst
  rw [List.length_cons, List.length_replicate, Nat.min_eq_left h]
  cases j with
  | zero => exact ⟨1, rfl⟩
  | succ j =>
    refine ⟨0, ?_⟩
    rw [List.drop_succ_cons, List.drop_replicate, List.replicate_append_replicate, ← List.replicate_succ]
    congr 1
    omega

/-- What the filter does with one letter. -/
def oneFiltered (infos : List WordInfo) (r : Nat) (st : List (List View)) : Res (List (List View)) := do
  let vec ← rd st r
  let (vec, n) ← filterLine (wordPred infos WordLines.base 0 0) vec
  let (_, has) ← countMean infos 0 ⟨0, 0, 1, 1⟩ vec n [0] false
  if has then meanPass infos 0 [(r, ⟨0, 0, 1, 1⟩)] (st.set r vec) else .ok (st.set r vec)

theorem filterByLines_one (infos : List WordInfo) (b : Box) (r : Nat) (st : List (List View)) (hf : Fits 1 b)
    (hb : ¬ (b.y = 1 ∧ b.h = 1)) : filterByLines infos [b] [r] st = oneFiltered infos r st := by
  have h1 := hf.1
  have h2 := hf.2
  have hbot := bottom_eq hf
  unfold filterByLines
  have ea : assert (decide ([b].length = [r].length)) = .ok () := rfl
  rw [ea, Res.ok_bind]
  have em : minMaxBox b [] = ⟨b.y, 0, b.bottom, 0⟩ := rfl
  dsimp only
  rw [em]
  have hlen : ∃ n, MinMax.bufLen ⟨b.y, 0, b.bottom, 0⟩ = n + 1 := by
    refine ⟨MinMax.bufLen ⟨b.y, 0, b.bottom, 0⟩ - 1, ?_⟩
    unfold MinMax.bufLen MinMax.bottomLen MinMax.topLen uadd usub
    rw [hbot]
    simp only [W32] at *
    omega
  obtain ⟨n, hn⟩ := hlen
  have hmin : min (MinMax.bottomLen ⟨b.y, 0, b.bottom, 0⟩) (MinMax.topLen ⟨b.y, 0, b.bottom, 0⟩) ≤ n + 1 := by
    rw [← hn]
    unfold MinMax.bufLen
    omega
  have e0 : usub b.bottom b.bottom = 0 := by rw [usub_eq (by omega) (Nat.le_refl _)]; omega
  have e1 : usub b.y b.y = 0 := by rw [usub_eq (by omega) (Nat.le_refl _)]; omega
  have ebump : bumpBottoms b.bottom [b] (List.replicate (n + 1) 0) = .ok (1 :: List.replicate n 0) := by
    unfold bumpBottoms
    rw [e0]
    rfl
  rw [hn]
  simp only
  rw [ebump, Res.ok_bind, maxIndex_zeros]
  obtain ⟨c, ec⟩ := zeroFirst_one _ n hmin
  rw [ec, show uadd 0 b.bottom = b.bottom by rw [uadd_eq (by omega)]; omega]
  unfold oneFiltered
  simp only [List.zip_cons_cons, List.zip_nil_left]
  unfold basePass
  rw [Res.bind_assoc, wordPred_congr infos WordLines.base
    (fun flags => linePred_self flags (y := b.bottom) (p := 0) (by omega) (by decide))]
  refine res_bind_congr fun vec => ?_
  rw [Res.bind_assoc]
  refine res_bind_congr fun vn => ?_
  obtain ⟨vec1, n1⟩ := vn
  dsimp only
  have emean : ∀ (c' : Nat) (s1 : List (List View)), meanIf infos ⟨b.y, 0, b.bottom, 0⟩ [(r, b)] s1 (c' :: List.replicate n 0) true =
      meanPass infos 0 [(r, ⟨0, 0, 1, 1⟩)] s1 := by
    intro c' s1
    unfold meanIf
    rw [if_pos rfl, maxIndex_zeros]
    simp only
    rw [show uadd 0 b.y = b.y by rw [uadd_eq (by omega)]; omega]
    unfold meanPass
    rw [wordPred_congr infos WordLines.mean (fun flags => linePred_self flags (y := b.y) (p := 0) (by omega) (by decide))]
    rfl
  unfold countMean
  by_cases hn1 : n1 = 1
  · rw [if_pos hn1, if_pos hn1]
    simp only [Res.bind_assoc]
    refine res_bind_congr fun v => ?_
    refine res_bind_congr fun p => ?_
    cases p with
    | none => rfl
    | some e =>
      dsimp only
      by_cases hl : e.lines.base = 2 ∧ e.lines.mean = 2
      · rw [if_pos hl, if_pos hl, e1]
        exact emean (uadd c 1) _
      · rw [if_neg hl, if_neg hl]
        rfl
  · rw [if_neg hn1, if_neg hn1]
    rfl

/-! ### The whole -/

/-- The line filter after the margins. -/
theorem filterByLines_margins (infos : List WordInfo) (left t : Nat) (boxes : List Box) (refs : List Nat)
    (st : List (List View)) (hf : ∀ b ∈ boxes, Fits (t + 1) b)
    (h1 : ∀ b, boxes = [b] → ¬ (b.h = 1 ∧ (b.y = 1 ∨ b.y + t = 1))) :
    filterByLines infos (boxes.map (movedBox left t)) refs st = filterByLines infos boxes refs st := by
  by_cases hl : boxes.length = 1
  · obtain ⟨b, rfl⟩ := List.length_eq_one_iff.1 hl
    have hb := hf b (by simp)
    have hp := hb.1
    have hs := hb.2
    have hn := h1 b rfl
    by_cases hr : refs.length = 1
    · obtain ⟨r, rfl⟩ := List.length_eq_one_iff.1 hr
      rw [List.map_cons, List.map_nil, filterByLines_one infos b r st ⟨hp, by omega⟩ (by omega),
        filterByLines_one infos (movedBox left t b) r st ⟨hp, by show b.y + t + b.h + 1 < _; omega⟩
          (by show ¬ (b.y + t = 1 ∧ b.h = 1); omega)]
    · have e : ∀ c : Box, filterByLines infos [c] refs st = .abort := by
        intro c
        unfold filterByLines
        rw [show decide ([c].length = refs.length) = false from decide_eq_false (by simpa using fun h => hr h.symm)]
        rfl
      rw [List.map_cons, List.map_nil, e, e]
  · exact filterByLines_moved infos left t boxes refs st hl hf

end Ppocr

import Verif.Model.ExtractText
import Verif.Spec.ExtractText
import Verif.Props.ImageContext
import Verif.Props.Box
import Verif.Proofs.Normalize
import Verif.Proofs.Ocr2

/-! # Helper lemmas: the loop over the letters -/

namespace Ppocr
open Spec Props

/-! ### The cache -/

/-- Nodes in the order of their keys. -/
def Ordered (m : List (Image × Nat)) : Prop := m.Pairwise fun p q => PictureLt p.1 q.1

theorem cacheFind_ok (k : Image) (hk : k.Full) : ∀ (m : List (Image × Nat)), (∀ p ∈ m, p.1.Full) → Ordered m →
    (∃ r, cacheFind k m = .ok (some r) ∧ (k, r) ∈ m) ∨ (cacheFind k m = .ok none ∧ ∀ p ∈ m, p.1 ≠ k) := by
  intro m
  induction m with
  | nil => intro _ _; right; exact ⟨rfl, by simp⟩
  | cons p m ih =>
    obtain ⟨a, r⟩ := p
    intro hf ho
    have ha : a.Full := hf (a, r) (by simp)
    obtain ⟨c, e1, e2, _, e4, e5⟩ := imageCompare_full ha hk
    unfold cacheFind imageLess
    rw [e1, Res.ok_bind, Res.pure_eq, Res.ok_bind]
    by_cases hc : c < 0
    · rw [if_pos (by simpa using hc)]
      rcases ih (fun p hp => hf p (by simp [hp])) (List.pairwise_cons.1 ho).2 with ⟨q, h1, h2⟩ | ⟨h1, h2⟩
      · left; exact ⟨q, h1, by simp [h2]⟩
      · right
        refine ⟨h1, ?_⟩
        intro p hp
        rcases List.mem_cons.1 hp with rfl | hp
        · intro e
          exact absurd (e4.2 e) (by omega)
        · exact h2 p hp
    · rw [if_neg (by simpa using hc), e2, Res.ok_bind, Res.pure_eq, Res.ok_bind]
      by_cases h0 : c = 0
      · left
        refine ⟨r, ?_, by rw [e4.1 h0]; simp⟩
        rw [h0]; rfl
      · right
        refine ⟨?_, ?_⟩
        · rw [if_pos (by simp; omega)]; rfl
        · have hka : PictureLt k a := by
            obtain ⟨c', f1, _, _, _, f5⟩ := imageCompare_full hk ha
            rw [e2] at f1
            cases f1
            exact f5.1 (by omega)
          intro p hp e
          rcases List.mem_cons.1 hp with rfl | hp
          · exact h0 (e4.2 e)
          · have := (List.pairwise_cons.1 ho).1 p hp
            rw [e] at this
            exact pictureLt_irrefl k (hka.trans this)

theorem cacheEmplace_ok (k : Image) (hk : k.Full) (r : Nat) : ∀ (m : List (Image × Nat)), (∀ p ∈ m, p.1.Full) →
    Ordered m → (∀ p ∈ m, p.1 ≠ k) →
    ∃ m', cacheEmplace k r m = .ok (m', r) ∧ Ordered m' ∧ m'.Perm ((k, r) :: m) := by
  intro m
  induction m with
  | nil => intro _ _ _; exact ⟨[(k, r)], rfl, by simp [Ordered], List.Perm.refl _⟩
  | cons p m ih =>
    obtain ⟨a, q⟩ := p
    intro hf ho hn
    have ha : a.Full := hf (a, q) (by simp)
    obtain ⟨c, e1, e2, _, e4, e5⟩ := imageCompare_full ha hk
    have ho' := List.pairwise_cons.1 ho
    unfold cacheEmplace imageLess
    rw [e1, Res.ok_bind, Res.pure_eq, Res.ok_bind]
    by_cases hc : c < 0
    · rw [if_pos (by simpa using hc)]
      obtain ⟨m', h1, h2, h3⟩ := ih (fun p hp => hf p (by simp [hp])) ho'.2 fun p hp => hn p (by simp [hp])
      refine ⟨(a, q) :: m', by rw [h1]; rfl, ?_, ?_⟩
      · refine List.pairwise_cons.2 ⟨?_, h2⟩
        intro p hp
        rcases List.mem_cons.1 (h3.mem_iff.1 hp) with rfl | hp
        · exact e5.1 hc
        · exact ho'.1 p hp
      · exact (h3.cons _).trans (List.Perm.swap _ _ _)
    · have h0 : c ≠ 0 := fun h => hn (a, q) (by simp) (e4.1 h)
      rw [if_neg (by simpa using hc), e2, Res.ok_bind, Res.pure_eq, Res.ok_bind]
      have hka : PictureLt k a := by
        obtain ⟨c', f1, _, _, _, f5⟩ := imageCompare_full hk ha
        rw [e2] at f1
        cases f1
        exact f5.1 (by omega)
      refine ⟨(k, r) :: (a, q) :: m, by rw [if_pos (by simp; omega)]; rfl, ?_, List.Perm.refl _⟩
      refine List.pairwise_cons.2 ⟨?_, ho⟩
      intro p hp
      rcases List.mem_cons.1 hp with rfl | hp
      · exact hka
      · exact hka.trans (ho'.1 p hp)

/-! ### One letter -/

section
variable {P : Type} [Dbl P]

/-- The candidates do not depend on what the second buffer holds. -/
theorem computeImage_tmp (s : Setup P) (t : List (Nat × P)) (a r : Image) {o : Outcome P}
    (h : computeImage s t a r = .ok o) : ∃ o', computeImage s [] a r = .ok o' ∧ o'.views = o.views := by
  unfold computeImage at h ⊢
  obtain ⟨ps, h1, h⟩ := Res.bind_eq_ok.1 h
  obtain ⟨ps', h2, h⟩ := Res.bind_eq_ok.1 h
  rw [h1, Res.ok_bind, h2, Res.ok_bind]
  by_cases hc : (s.complex.isEmpty && s.exclusive.isEmpty) = true
  · rw [if_pos hc] at h ⊢
    unfold finish at h ⊢
    obtain ⟨qs, h3, h⟩ := Res.bind_eq_ok.1 h
    rw [h3, Res.ok_bind]
    cases hq : sortByProb s.sort qs with
    | nil =>
      simp only [hq, Res.pure_eq] at h ⊢
      cases h
      exact ⟨_, rfl, rfl⟩
    | cons b bs =>
      simp only [hq] at h ⊢
      obtain ⟨v, h4, h⟩ := Res.bind_eq_ok.1 h
      rw [h4, Res.ok_bind]
      cases h
      exact ⟨_, rfl, rfl⟩
  · rw [if_neg hc] at h ⊢
    exact ⟨o, h, rfl⟩

theorem rotate90_turned {i : Image} (wf : i.WF) : i.rotate90 = .ok (turned i) := by
  unfold Image.rotate90
  rw [rotLoop_ok wf i.bounds.w _ (by omega) (Nat.le_refl _) (by simp [grid_zero])]
  simp [Out.toImage, area_eq wf, turned]

/-- `img90()` and what both images show then. -/
theorem doImg90_views {h : Heap} {c : Ctx} {i : Image} {l : List (Option Pixel)} (inv : c.Inv h i l) :
    ∃ h' c' l', c.doImg90 h = .ok (h', c') ∧ c'.Inv h' i l' ∧ c'.img.view h' = .ok i ∧
      c'.img90.view h' = .ok (turned i) := by
  obtain ⟨h', l', e', inv', hp⟩ := doImg90_ok inv
  have wf := inv.wf
  have ha := area_eq wf
  have hl := wf.len
  have hr := inv'.room
  have htl : (turned i).data.length = i.data.length := by
    simp only [turned, grid_length]; omega
  have hta : (turned i).bounds.area = i.data.length := by
    rw [hl, ← ha, turned, Bounds.area, Bounds.area, umul, umul, Nat.mul_comm]
  refine ⟨h', _, l', e', inv', (inv_img inv').2, ?_⟩
  rw [ImageRef.view]
  have hld : h'.load (shift c.data i.data.length) (turned i).data.length = .ok (turned i).data :=
    loadPix_ok (l := l'.drop i.data.length) (by exact inv'.mem.cells (by omega)) hp
  rw [htl] at hld
  simp only [hta]
  rw [hld]
  rfl

/-- A picture can be shown and recognised. -/
structure Readable (s : Setup P) (g : RGlyphs) (a : Image) : Prop where
  wf : a.WF
  w : 0 < a.bounds.w
  h : 0 < a.bounds.h
  small : 2 * (a.bounds.w * a.bounds.h) < W32
  compute : ∀ r, a.rotate90 = .ok r → ∀ t, ∃ o, computeImage s t a r = .ok o
  words : ∀ vs, candidates s a = .ok vs → ∀ v ∈ vs, ∃ w, getWord g.buf v.word = .ok w

/-- What is true between two letters: `as` are the pictures seen, `keys` the different ones in the order in which they
appeared. -/
structure LineInv (s : Setup P) (l : Line P) (as keys : List Image) : Prop where
  ctx : ∃ j cells, l.ctx.Inv l.heap j cells
  keysLen : keys.length = l.st.length
  nodup : keys.Nodup
  full : ∀ a ∈ keys, a.Full
  sorted : Ordered l.cache
  mem : ∀ a (r : Nat), (a, r) ∈ l.cache ↔ keys[r]? = some a
  refsLen : l.refs.length = as.length
  refs : ∀ (k r : Nat), l.refs[k]? = some r → r < keys.length ∧ keys[r]? = as[k]?
  seen : ∀ a ∈ keys, a ∈ as
  views : ∀ (r : Nat) a, keys[r]? = some a → ∃ v, candidates s a = .ok v ∧ l.st[r]? = some v

theorem printWords_ok (g : RGlyphs) (vs : List View) (h : ∀ v ∈ vs, ∃ w, getWord g.buf v.word = .ok w) :
    printWords g vs = .ok () := by
  induction vs with
  | nil => rfl
  | cons v vs ih =>
    obtain ⟨w, e⟩ := h v (by simp)
    unfold printWords
    rw [e, Res.ok_bind]
    exact ih fun v hv => h v (by simp [hv])

theorem lookLetter_ok {s : Setup P} {g : RGlyphs} {l : Line P} {as keys : List Image} {a : Image}
    (inv : LineInv s l as keys) (hc : ∃ cells, l.ctx.Inv l.heap a cells) (hr : Readable s g a) :
    ∃ l' keys', lookLetter s g l = .ok l' ∧ LineInv s l' (as ++ [a]) keys' ∧ l'.boxes = l.boxes ∧
      l'.spaces = l.spaces ∧ l'.nth = l.nth := by
  obtain ⟨cells, hc⟩ := hc
  have hfull : ∀ p ∈ l.cache, p.1.Full := fun p hp =>
    inv.full _ (List.mem_of_getElem? ((inv.mem p.1 p.2).1 hp))
  unfold lookLetter
  rw [(inv_img hc).2, Res.ok_bind]
  rcases cacheFind_ok a hr.wf.full l.cache hfull inv.sorted with ⟨r, e, hm⟩ | ⟨e, hm⟩
  · rw [e, Res.ok_bind]
    have hk := (inv.mem a r).1 hm
    refine ⟨_, keys, rfl, ⟨⟨a, cells, hc⟩, inv.keysLen, inv.nodup, inv.full, inv.sorted, inv.mem, ?_, ?_, ?_, inv.views⟩,
      rfl, rfl, rfl⟩
    · simp [inv.refsLen]
    · intro k q hq
      simp only [] at hq
      by_cases hkl : k < l.refs.length
      · rw [List.getElem?_append_left hkl] at hq
        rw [List.getElem?_append_left (by rw [← inv.refsLen]; exact hkl)]
        exact inv.refs k q hq
      · rw [List.getElem?_append_right (by omega)] at hq
        rw [List.getElem?_append_right (by rw [← inv.refsLen]; omega), ← inv.refsLen]
        have hk0 : k - l.refs.length = 0 := by
          have := (List.getElem?_eq_some_iff.1 hq).1
          simpa using this
        rw [hk0] at hq ⊢
        simp only [List.getElem?_cons_zero, Option.some.injEq] at hq ⊢
        subst hq
        exact ⟨(List.getElem?_eq_some_iff.1 hk).1, hk⟩
    · intro b hb
      exact List.mem_append_left _ (inv.seen b hb)
  · rw [e, Res.ok_bind]
    simp only []
    unfold newLetter
    obtain ⟨h', c', l', e1, inv', v1, v2⟩ := doImg90_views hc
    rw [e1, Res.ok_bind]
    simp only []
    rw [v1, Res.ok_bind, v2, Res.ok_bind]
    obtain ⟨o, ho⟩ := hr.compute _ (rotate90_turned hr.wf) l.tmp
    rw [ho, Res.ok_bind, C04_clone a hr.wf hr.w hr.h, Res.ok_bind]
    obtain ⟨m', h1, h2, h3⟩ := cacheEmplace_ok a hr.wf.full l.st.length l.cache hfull inv.sorted hm
    rw [h1, Res.ok_bind]
    simp only []
    have hcand : candidates s a = .ok o.views := by
      obtain ⟨o', f1, f2⟩ := computeImage_tmp s _ _ _ ho
      unfold candidates
      rw [rotate90_turned hr.wf, Res.ok_bind, f1, Res.ok_bind, f2]
      rfl
    rw [printWords_ok g _ (hr.words _ hcand), Res.ok_bind]
    have hnew : a ∉ keys := by
      intro h
      obtain ⟨q, hq, hq2⟩ := List.mem_iff_getElem.1 h
      exact hm (a, q) ((inv.mem a q).2 (by rw [List.getElem?_eq_getElem hq, hq2])) rfl
    refine ⟨_, keys ++ [a], rfl, ⟨⟨a, l', inv'⟩, ?_, ?_, ?_, h2, ?_, ?_, ?_, ?_, ?_⟩, rfl, rfl, rfl⟩
    · simp [inv.keysLen]
    · rw [List.nodup_append]
      refine ⟨inv.nodup, by simp, ?_⟩
      intro x hx y hy
      simp only [List.mem_singleton] at hy
      subst hy
      intro e
      exact hnew (e ▸ hx)
    · intro b hb
      rcases List.mem_append.1 hb with hb | hb
      · exact inv.full b hb
      · simp only [List.mem_singleton] at hb
        subst hb
        exact hr.wf.full
    · intro b r
      rw [h3.mem_iff, List.mem_cons]
      by_cases hrl : r < keys.length
      · rw [List.getElem?_append_left hrl, ← inv.mem]
        constructor
        · rintro (h | h)
          · simp only [Prod.mk.injEq] at h
            have := inv.keysLen
            omega
          · exact h
        · exact Or.inr
      · rw [List.getElem?_append_right (by omega)]
        have hno : (b, r) ∉ l.cache := by
          intro h
          have := (List.getElem?_eq_some_iff.1 ((inv.mem b r).1 h)).1
          omega
        constructor
        · rintro (h | h)
          · simp only [Prod.mk.injEq] at h
            rw [h.2, inv.keysLen, h.1]; simp
          · exact absurd h hno
        · intro h
          left
          have hk0 : r - keys.length = 0 := by
            have := (List.getElem?_eq_some_iff.1 h).1
            simpa using this
          rw [hk0] at h
          simp only [List.getElem?_cons_zero, Option.some.injEq] at h
          subst h
          have := inv.keysLen
          simp only [Prod.mk.injEq, true_and]
          omega
    · simp [inv.refsLen]
    · intro k q hq
      simp only [] at hq
      by_cases hkl : k < l.refs.length
      · rw [List.getElem?_append_left hkl] at hq
        rw [List.getElem?_append_left (l₁ := as) (by rw [← inv.refsLen]; exact hkl)]
        obtain ⟨i1, i2⟩ := inv.refs k q hq
        rw [List.getElem?_append_left i1]
        exact ⟨by simp; omega, i2⟩
      · rw [List.getElem?_append_right (by omega)] at hq
        rw [List.getElem?_append_right (l₁ := as) (by rw [← inv.refsLen]; omega), ← inv.refsLen]
        have hk0 : k - l.refs.length = 0 := by
          have := (List.getElem?_eq_some_iff.1 hq).1
          simpa using this
        rw [hk0] at hq ⊢
        simp only [List.getElem?_cons_zero, Option.some.injEq] at hq ⊢
        subst hq
        rw [List.getElem?_append_right (by rw [inv.keysLen]; exact Nat.le_refl _), inv.keysLen]
        simp [inv.keysLen]
    · intro b hb
      rcases List.mem_append.1 hb with hb | hb
      · exact List.mem_append_left _ (inv.seen b hb)
      · exact List.mem_append_right _ hb
    · intro r b hb
      simp only [if_true]
      by_cases hrl : r < keys.length
      · rw [List.getElem?_append_left hrl] at hb
        obtain ⟨v, i1, i2⟩ := inv.views r b hb
        exact ⟨v, i1, by rw [List.getElem?_append_left (by rw [← inv.keysLen]; exact hrl)]; exact i2⟩
      · rw [List.getElem?_append_right (by omega)] at hb
        have hk0 : r - keys.length = 0 := by
          have := (List.getElem?_eq_some_iff.1 hb).1
          simpa using this
        rw [hk0] at hb
        simp only [List.getElem?_cons_zero, Option.some.injEq] at hb
        subst hb
        refine ⟨_, hcand, ?_⟩
        have := inv.keysLen
        rw [List.getElem?_append_right (by omega), show r - l.st.length = 0 by omega]
        rfl

/-! ### The loop -/

theorem gaps_snoc (bs : List Box) (b : Box) :
    gaps (bs ++ [b]) = if endBefore bs bs.length + 4 < b.x then gaps bs ++ [bs.length] else gaps bs := by
  have hend : ∀ k, k ≤ bs.length → endBefore (bs ++ [b]) k = endBefore bs k := by
    intro k hk
    cases k with
    | zero => rfl
    | succ k => simp only [endBefore]; rw [List.getElem?_append_left (by omega)]
  have hlt : ∀ k, k < bs.length → (Gap (bs ++ [b]) k ↔ Gap bs k) := by
    intro k hk
    unfold Gap
    rw [hend k (by omega), List.getElem?_append_left hk]
  have hlast : Gap (bs ++ [b]) bs.length ↔ endBefore bs bs.length + 4 < b.x := by
    unfold Gap
    rw [hend _ (Nat.le_refl _)]
    simp
  unfold gaps
  rw [List.length_append, List.length_singleton, List.range_succ, List.filter_append]
  have h1 : (List.range bs.length).filter (fun k => decide (Gap (bs ++ [b]) k)) =
      (List.range bs.length).filter fun k => decide (Gap bs k) := by
    apply List.filter_congr
    intro k hk
    simp only [decide_eq_decide]
    exact hlt k (List.mem_range.1 hk)
  rw [h1]
  by_cases h : endBefore bs bs.length + 4 < b.x
  · rw [if_pos h, List.filter_cons_of_pos (by simpa using hlast.2 h)]; rfl
  · rw [if_neg h, List.filter_cons_of_neg (by simpa using fun hh => h (hlast.1 hh))]; simp

theorem letterStep_ok {s : Setup P} {g : RGlyphs} {i : Image} (wf : i.WF) (hi : i.bounds.w + 4 < W32)
    {l : Line P} {as keys : List Image} {a : Image}
    {b : Box} {x : Nat} (inv : LineInv s l as keys) (hw : 0 < b.w) (hh : 0 < b.h) (hx : b.x + b.w ≤ i.bounds.w)
    (hy : b.y + b.h ≤ i.bounds.h) (hs : i.section b.x b.y b.bounds = .ok a) (hr : Readable s g a)
    (hxe : x = endBefore l.boxes l.boxes.length) (hxw : x ≤ i.bounds.w) (hn : l.nth = l.boxes.length)
    (hnl : l.nth + 1 < W32) (hg : l.spaces = gaps l.boxes) :
    ∃ l' keys', letterStep s g i x b l = .ok l' ∧ LineInv s l' (as ++ [a]) keys' ∧ l'.boxes = l.boxes ++ [b] ∧
      l'.spaces = gaps l'.boxes ∧ l'.nth = l'.boxes.length := by
  obtain ⟨j, cells, hc⟩ := inv.ctx
  obtain ⟨a', e1, wa, hb, hm⟩ := C55_section i wf b.x b.y b.bounds hw hh
    (show b.w + b.x ≤ _ by omega) (show b.h + b.y ≤ _ by omega)
  rw [hs] at e1
  cases e1
  have hd := doImg_ok hc wa hr.small hm
  rw [hb] at hd
  obtain ⟨h', c', cells', e2, inv2, _⟩ := hd
  unfold letterStep
  rw [e2, Res.ok_bind]
  simp only []
  obtain ⟨l', keys', e3, inv3, f1, f2, f3⟩ := lookLetter_ok (s := s) (g := g)
    (l := { l with
      heap := h', ctx := c', nth := uadd l.nth 1
      spaces := if uadd x 4 < b.x then l.spaces ++ [l.nth] else l.spaces }) (as := as) (keys := keys) (a := a)
    ⟨⟨a, cells', inv2⟩, inv.keysLen, inv.nodup, inv.full, inv.sorted, inv.mem, inv.refsLen, inv.refs, inv.seen, inv.views⟩
    ⟨cells', inv2⟩ hr
  rw [e3, Res.ok_bind]
  refine ⟨_, keys', rfl, ⟨inv3.ctx, inv3.keysLen, inv3.nodup, inv3.full, inv3.sorted, inv3.mem, inv3.refsLen, inv3.refs,
    inv3.seen, inv3.views⟩, ?_, ?_, ?_⟩
  · rw [f1]
  · simp only [f1, f2]
    rw [gaps_snoc, hg, hn, ← hxe, uadd_eq (by omega)]
  · simp only [f1, f3]
    rw [uadd_eq hnl, hn]
    simp

theorem lineLoop_ok {s : Setup P} {g : RGlyphs} {i : Image} (wf : i.WF) (hi : i.bounds.w + 4 < W32) :
    ∀ (fuel x : Nat) (bs : List Box) (as' : List Image) (l : Line P) (as keys : List Image),
      segmentFrom i fuel x = .ok bs →
      (∀ b ∈ bs, 0 < b.w ∧ 0 < b.h ∧ b.x + b.w ≤ i.bounds.w ∧ b.y + b.h ≤ i.bounds.h) →
      Pictures i bs as' → (∀ a ∈ as', Readable s g a) →
      LineInv s l as keys → x = endBefore l.boxes l.boxes.length → x ≤ i.bounds.w → l.nth = l.boxes.length →
      l.nth + bs.length < W32 → l.spaces = gaps l.boxes →
      ∃ l' keys', lineLoop s g i fuel x l = .ok l' ∧ LineInv s l' (as ++ as') keys' ∧ l'.boxes = l.boxes ++ bs ∧
        l'.spaces = gaps l'.boxes := by
  intro fuel
  induction fuel with
  | zero => intro x bs as' l as keys h; simp [segmentFrom] at h
  | succ fuel ih =>
    intro x bs as' l as keys h hb hp hr inv hx hxw hn hnl hg
    unfold segmentFrom at h
    obtain ⟨b, h1, h⟩ := Res.bind_eq_ok.1 h
    unfold lineLoop
    rw [h1, Res.ok_bind]
    by_cases ht : b.truthy = true
    · rw [if_pos ht] at h ⊢
      obtain ⟨r, h2, h⟩ := Res.bind_eq_ok.1 h
      cases h
      cases as' with
      | nil => exact absurd hp (by simp [Pictures])
      | cons a as' =>
        obtain ⟨hp1, hp2⟩ := hp
        obtain ⟨b1, b2, b3, b4⟩ := hb b (by simp)
        have hwl := wf.w_lt
        simp only [List.length_cons] at hnl
        obtain ⟨l1, keys1, e1, inv1, f1, f2, f3⟩ := letterStep_ok (s := s) (g := g) wf hi inv b1 b2 b3 b4 hp1
          (hr a (by simp)) hx hxw hn (by omega) hg
        rw [e1, Res.ok_bind]
        rw [uadd_eq (by omega)] at h2 ⊢
        obtain ⟨l2, keys2, e2, inv2, g1, g2⟩ := ih (b.x + b.w) r as' l1 (as ++ [a]) keys1 h2
          (fun c hc => hb c (by simp [hc])) hp2 (fun c hc => hr c (by simp [hc])) inv1
          (by rw [f1]; simp [endBefore]) b3 f3 (by rw [f3, f1, List.length_append, ← hn, List.length_singleton]; omega) f2
        refine ⟨l2, keys2, e2, by simpa using inv2, ?_, g2⟩
        rw [g1, f1]; simp
    · rw [if_neg ht] at h ⊢
      cases h
      cases as' with
      | cons a as' => exact absurd hp (by simp [Pictures])
      | nil => exact ⟨l, keys, rfl, by simpa using inv, by simp, hg⟩

/-- A letter whose recognition is undefined. -/
structure Unread (s : Setup P) (a : Image) : Prop where
  wf : a.WF
  small : 2 * (a.bounds.w * a.bounds.h) < W32
  compute : ∀ r, a.rotate90 = .ok r → ∀ t, computeImage s t a r = .ub

theorem letterStep_ub {s : Setup P} {g : RGlyphs} {i : Image} (wf : i.WF)
    {l : Line P} {as keys : List Image} {a : Image}
    {b : Box} {x : Nat} (inv : LineInv s l as keys) (hw : 0 < b.w) (hh : 0 < b.h) (hx : b.x + b.w ≤ i.bounds.w)
    (hy : b.y + b.h ≤ i.bounds.h) (hs : i.section b.x b.y b.bounds = .ok a) (hr : Unread s a) (hnew : a ∉ as) :
    letterStep s g i x b l = .ub := by
  obtain ⟨j, cells, hc⟩ := inv.ctx
  obtain ⟨a', e1, wa, hb, hm⟩ := C55_section i wf b.x b.y b.bounds hw hh
    (show b.w + b.x ≤ _ by omega) (show b.h + b.y ≤ _ by omega)
  rw [hs] at e1
  cases e1
  have hd := doImg_ok hc wa hr.small hm
  rw [hb] at hd
  obtain ⟨h', c', cells', e2, inv2, _⟩ := hd
  unfold letterStep
  rw [e2, Res.ok_bind]
  simp only []
  unfold lookLetter
  simp only []
  rw [(inv_img inv2).2, Res.ok_bind]
  have hfull : ∀ p ∈ l.cache, p.1.Full := fun p hp =>
    inv.full _ (List.mem_of_getElem? ((inv.mem p.1 p.2).1 hp))
  rcases cacheFind_ok a hr.wf.full l.cache hfull inv.sorted with ⟨r, e, hm⟩ | ⟨e, hm⟩
  · exact absurd (inv.seen a (List.mem_of_getElem? ((inv.mem a r).1 hm))) hnew
  · rw [e, Res.ok_bind]
    simp only []
    unfold newLetter
    obtain ⟨h', c', l', e1, inv', v1, v2⟩ := doImg90_views inv2
    simp only []
    rw [e1, Res.ok_bind]
    simp only []
    rw [v1, Res.ok_bind, v2, Res.ok_bind, hr.compute _ (rotate90_turned hr.wf)]
    rfl

/-- The loop comes to the first letter whose recognition is undefined. -/
theorem lineLoop_ub {s : Setup P} {g : RGlyphs} {i : Image} (wf : i.WF) (hi : i.bounds.w + 4 < W32) :
    ∀ (fuel x : Nat) (bs : List Box) (as' : List Image) (l : Line P) (as keys : List Image),
      segmentFrom i fuel x = .ok bs →
      (∀ b ∈ bs, 0 < b.w ∧ 0 < b.h ∧ b.x + b.w ≤ i.bounds.w ∧ b.y + b.h ≤ i.bounds.h) →
      Pictures i bs as' → (∀ a ∈ as', Readable s g a ∨ Unread s a) → (∃ a ∈ as', Unread s a) → (∀ a ∈ as, Readable s g a) →
      LineInv s l as keys → x = endBefore l.boxes l.boxes.length → x ≤ i.bounds.w → l.nth = l.boxes.length →
      l.nth + bs.length < W32 → l.spaces = gaps l.boxes → lineLoop s g i fuel x l = .ub := by
  intro fuel
  induction fuel with
  | zero => intro x bs as' l as keys h; simp [segmentFrom] at h
  | succ fuel ih =>
    intro x bs as' l as keys h hb hp hr hex hold inv hx hxw hn hnl hg
    unfold segmentFrom at h
    obtain ⟨b, h1, h⟩ := Res.bind_eq_ok.1 h
    unfold lineLoop
    rw [h1, Res.ok_bind]
    by_cases ht : b.truthy = true
    · rw [if_pos ht] at h ⊢
      obtain ⟨r, h2, h⟩ := Res.bind_eq_ok.1 h
      cases h
      cases as' with
      | nil => exact absurd hp (by simp [Pictures])
      | cons a as' =>
        obtain ⟨hp1, hp2⟩ := hp
        obtain ⟨b1, b2, b3, b4⟩ := hb b (by simp)
        have hwl := wf.w_lt
        simp only [List.length_cons] at hnl
        rcases hr a (by simp) with hra | hra
        · obtain ⟨l1, keys1, e1, inv1, f1, f2, f3⟩ := letterStep_ok (s := s) (g := g) wf hi inv b1 b2 b3 b4 hp1
            hra hx hxw hn (by omega) hg
          rw [e1, Res.ok_bind]
          rw [uadd_eq (by omega)] at h2 ⊢
          refine ih (b.x + b.w) r as' l1 (as ++ [a]) keys1 h2
            (fun c hc => hb c (by simp [hc])) hp2 (fun c hc => hr c (by simp [hc])) ?_ ?_ inv1
            (by rw [f1]; simp [endBefore]) b3 f3 (by rw [f3, f1, List.length_append, ← hn, List.length_singleton]; omega) f2
          · obtain ⟨c, hc, hu⟩ := hex
            rcases List.mem_cons.1 hc with rfl | hc
            · obtain ⟨o, ho⟩ := hra.compute _ (rotate90_turned hra.wf) []
              rw [hu.compute _ (rotate90_turned hra.wf)] at ho
              cases ho
            · exact ⟨c, hc, hu⟩
          · intro c hc
            rcases List.mem_append.1 hc with hc | hc
            · exact hold c hc
            · rw [List.mem_singleton] at hc
              subst hc
              exact hra
        · rw [letterStep_ub (g := g) wf inv b1 b2 b3 b4 hp1 hra, Res.ub_bind]
          intro hm
          obtain ⟨o, ho⟩ := (hold a hm).compute _ (rotate90_turned hra.wf) []
          rw [hra.compute _ (rotate90_turned hra.wf)] at ho
          cases ho
    · rw [if_neg ht] at h
      cases h
      cases as' with
      | cons a as' => exact absurd hp (by simp [Pictures])
      | nil =>
        obtain ⟨c, hc, _⟩ := hex
        cases hc

theorem lineInv_init (s : Setup P) : LineInv s (Line.init P) [] [] where
  ctx := ⟨_, _, inv_init⟩
  keysLen := rfl
  nodup := List.nodup_nil
  full := by simp
  sorted := List.Pairwise.nil
  mem := by intro a r; simp [Line.init]
  refsLen := rfl
  refs := by intro k r h; simp [Line.init] at h
  seen := by simp
  views := by intro r a h; simp at h

theorem pictures_exist {i : Image} (wf : i.WF) : ∀ (bs : List Box),
    (∀ b ∈ bs, 0 < b.w ∧ 0 < b.h ∧ b.x + b.w ≤ i.bounds.w ∧ b.y + b.h ≤ i.bounds.h) →
    ∃ as, Pictures i bs as ∧ as.length = bs.length := by
  intro bs
  induction bs with
  | nil => intro _; exact ⟨[], trivial, rfl⟩
  | cons b bs ih =>
    intro h
    obtain ⟨b1, b2, b3, b4⟩ := h b (by simp)
    obtain ⟨a, e, _⟩ := C55_section i wf b.x b.y b.bounds b1 b2 (show b.w + b.x ≤ _ by omega) (show b.h + b.y ≤ _ by omega)
    obtain ⟨as, e2, e3⟩ := ih fun c hc => h c (by simp [hc])
    exact ⟨a :: as, ⟨e, e2⟩, by simp [e3]⟩

end

theorem pictures_box {i : Image} : ∀ {bs : List Box} {as : List Image} {a : Image}, Pictures i bs as → a ∈ as →
    ∃ b ∈ bs, i.section b.x b.y b.bounds = .ok a := by
  intro bs
  induction bs with
  | nil =>
    intro as a hp ha
    cases as with
    | nil => simp at ha
    | cons => exact absurd hp (by simp [Pictures])
  | cons b bs ih =>
    intro as a hp ha
    cases as with
    | nil => exact absurd hp (by simp [Pictures])
    | cons c as =>
      rcases List.mem_cons.1 ha with rfl | ha
      · exact ⟨b, by simp, hp.1⟩
      · obtain ⟨d, h1, h2⟩ := ih hp.2 ha
        exact ⟨d, by simp [h1], h2⟩

end Ppocr

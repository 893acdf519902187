import Verif.Spec.Alike
import Verif.Proofs.Margins
import Verif.Props.Image

/-! # Proofs: two lines with the same letters -/

namespace Ppocr
open Spec

/-! ### The loop on two lines -/

/-- The letters of two lines from the columns `x` and `x'` on. -/
def InStep (top : Nat) (i i' : Image) : Nat → Nat → List Box → List Box → Prop
  | x, x', b :: bs, b' :: bs' =>
    b'.w = b.w ∧ b'.h = b.h ∧ b'.y = b.y + top ∧
    (∀ o, sectionInto i' o b'.x b'.y b'.bounds = sectionInto i o b.x b.y b.bounds) ∧ (x' + 4 < b'.x ↔ x + 4 < b.x) ∧
    InStep top i i' (b.x + b.w) (b'.x + b'.w) bs bs'
  | _, _, [], [] => True
  | _, _, _, _ => False

section
variable {P : Type} [Dbl P]

theorem newLetter_boxed (B : List Box) (s : Setup P) (g : RGlyphs) (l : Line P) :
    newLetter s g { l with boxes := B } = newLetter s g l >>= fun r => .ok { r with boxes := B } := by
  unfold newLetter
  simp only [Res.bind_assoc, Res.pure_eq, Res.ok_bind]

theorem lookLetter_boxed (B : List Box) (s : Setup P) (g : RGlyphs) (l : Line P) :
    lookLetter s g { l with boxes := B } = lookLetter s g l >>= fun r => .ok { r with boxes := B } := by
  unfold lookLetter
  show (l.ctx.img.view l.heap >>= fun img => cacheFind img l.cache >>= _) = _
  simp only [Res.bind_assoc]
  congr 1
  funext img
  congr 1
  funext hit
  cases hit with
  | some r => simp only [Res.pure_eq, Res.ok_bind]
  | none => exact newLetter_boxed B s g l

theorem letterStep_alike {i i' : Image} (s : Setup P) (g : RGlyphs) {x x' : Nat} {b b' : Box} (hw : b'.w = b.w) (hh : b'.h = b.h)
    (hp : ∀ o, sectionInto i' o b'.x b'.y b'.bounds = sectionInto i o b.x b.y b.bounds)
    (hg : uadd x' 4 < b'.x ↔ uadd x 4 < b.x) (l : Line P) (B : List Box) :
    letterStep s g i' x' b' { l with boxes := B } =
      letterStep s g i x b l >>= fun r => .ok { r with boxes := B ++ [b'] } := by
  unfold letterStep
  rw [show (fun o => sectionInto i' o b'.x b'.y b'.bounds) = fun o => sectionInto i o b.x b.y b.bounds from funext hp,
    show b'.bounds = b.bounds by unfold Box.bounds; rw [hw, hh]]
  simp only [Res.bind_assoc]
  congr 1
  funext hc
  have e2 : (if uadd x' 4 < b'.x then l.spaces ++ [l.nth] else l.spaces) =
      if uadd x 4 < b.x then l.spaces ++ [l.nth] else l.spaces := by
    by_cases h : uadd x 4 < b.x
    · rw [if_pos h, if_pos (hg.2 h)]
    · rw [if_neg h, if_neg fun k => h (hg.1 k)]
  have := lookLetter_boxed B s g
    { l with heap := hc.1, ctx := hc.2, nth := uadd l.nth 1
             spaces := if uadd x 4 < b.x then l.spaces ++ [l.nth] else l.spaces }
  dsimp only at this ⊢
  rw [e2, this, Res.bind_assoc]
  congr 1

theorem lineLoop_alike {top : Nat} {i i' : Image} (s : Setup P) (g : RGlyphs) :
    ∀ (fuel fuel' x x' : Nat) (bs bs' : List Box) (l : Line P) (B : List Box), segmentFrom i fuel x = .ok bs →
      segmentFrom i' fuel' x' = .ok bs' → InStep top i i' x x' bs bs' → x + 4 < W32 → x' + 4 < W32 →
      (∀ b ∈ bs, b.x + b.w + 4 < W32) → (∀ b ∈ bs', b.x + b.w + 4 < W32) →
      lineLoop s g i' fuel' x' { l with boxes := B } =
        lineLoop s g i fuel x l >>= fun r => .ok { r with boxes := B ++ bs' }
  | 0, _, _, _, _, _, _, _, h, _, _, _, _, _, _ => by simp [segmentFrom] at h
  | _ + 1, 0, _, _, _, _, _, _, _, h, _, _, _, _, _ => by simp [segmentFrom] at h
  | fuel + 1, fuel' + 1, x, x', bs, bs', l, B, h1, h2, ha, hx, hx', hb, hb' => by
    unfold segmentFrom at h1 h2
    obtain ⟨b, e1, h1⟩ := Res.bind_eq_ok.1 h1
    obtain ⟨b', e2, h2⟩ := Res.bind_eq_ok.1 h2
    unfold lineLoop
    rw [e1, e2, Res.ok_bind, Res.ok_bind]
    by_cases t : b.truthy = true
    · rw [if_pos t] at h1
      obtain ⟨cs, f1, h1⟩ := Res.bind_eq_ok.1 h1
      cases h1
      by_cases t' : b'.truthy = true
      · rw [if_pos t'] at h2
        obtain ⟨cs', f2, h2⟩ := Res.bind_eq_ok.1 h2
        cases h2
        obtain ⟨a1, a2, _, a4, a5, a6⟩ := ha
        have k := hb b (by simp)
        have k' := hb' b' (by simp)
        rw [uadd_eq (by omega)] at f1 f2
        rw [if_pos t, if_pos t', letterStep_alike s g a1 a2 a4 (x := x) (by rw [uadd_eq (by omega), uadd_eq (by omega)]; exact a5),
          Res.bind_assoc, Res.bind_assoc]
        congr 1
        funext r
        rw [Res.ok_bind, uadd_eq (by omega), uadd_eq (by omega),
          lineLoop_alike s g fuel fuel' _ _ cs cs' r (B ++ [b']) f1 f2 a6 (by omega) (by omega) (fun c hc => hb c (by simp [hc]))
            (fun c hc => hb' c (by simp [hc]))]
        simp only [List.append_assoc, List.singleton_append]
      · rw [if_neg t'] at h2
        cases h2
        exact ha.elim
    · rw [if_neg t] at h1
      cases h1
      by_cases t' : b'.truthy = true
      · rw [if_pos t'] at h2
        obtain ⟨cs', f2, h2⟩ := Res.bind_eq_ok.1 h2
        cases h2
        exact ha.elim
      · rw [if_neg t'] at h2
        cases h2
        rw [if_neg t, if_neg t']
        simp only [Res.pure_eq, Res.ok_bind, List.append_nil]

end

/-! ### The line filter does not look at the columns -/

/-- The rows of a box. -/
def rowsOf (b : Box) : Box := ⟨0, b.y, 0, b.h⟩

theorem minMaxBox_rows (b : Box) (bs : List Box) : minMaxBox (rowsOf b) (bs.map rowsOf) = minMaxBox b bs := by
  unfold minMaxBox
  rw [List.foldl_map]
  rfl

theorem bumpBottoms_rows (lo : Nat) : ∀ (bs : List Box) (ys : List Nat), bumpBottoms lo (bs.map rowsOf) ys = bumpBottoms lo bs ys
  | [], _ => rfl
  | b :: bs, ys => by
    rw [List.map_cons]
    unfold bumpBottoms
    exact res_bind_congr fun zs => bumpBottoms_rows lo bs zs

theorem basePass_rows (infos : List WordInfo) (baseline minTop : Nat) :
    ∀ (l : List (Nat × Box)) (st : List (List View)) (map : List Nat) (has : Bool),
      basePass infos baseline minTop (l.map fun p => (p.1, rowsOf p.2)) st map has = basePass infos baseline minTop l st map has
  | [], _, _, _ => rfl
  | (r, b) :: l, st, map, has => by
    simp only [List.map_cons]
    unfold basePass
    refine res_bind_congr fun vec => res_bind_congr fun vn => res_bind_congr fun mh => ?_
    exact basePass_rows infos baseline minTop l _ _ _

theorem meanPass_rows (infos : List WordInfo) (meanline : Nat) : ∀ (l : List (Nat × Box)) (st : List (List View)),
    meanPass infos meanline (l.map fun p => (p.1, rowsOf p.2)) st = meanPass infos meanline l st
  | [], _ => rfl
  | (r, b) :: l, st => by
    simp only [List.map_cons]
    unfold meanPass
    refine res_bind_congr fun vec => res_bind_congr fun vn => ?_
    exact meanPass_rows infos meanline l _

theorem filterByLines_rows (infos : List WordInfo) (boxes : List Box) (refs : List Nat) (st : List (List View)) :
    filterByLines infos (boxes.map rowsOf) refs st = filterByLines infos boxes refs st := by
  cases boxes with
  | nil => rfl
  | cons b bs =>
    rw [List.map_cons, filterByLines_cons, filterByLines_cons, minMaxBox_rows, ← List.map_cons, List.length_map]
    refine res_bind_congr fun _ => ?_
    unfold lineFilter
    rw [bumpBottoms_rows]
    refine res_bind_congr fun ys => ?_
    have ez : refs.zip ((b :: bs).map rowsOf) = (refs.zip (b :: bs)).map fun p => (p.1, rowsOf p.2) := by
      rw [List.zip_map_right]
      rfl
    rw [ez, basePass_rows]
    refine res_bind_congr fun smh => ?_
    obtain ⟨st1, map1, has1⟩ := smh
    dsimp only
    unfold meanIf
    rw [meanPass_rows]

theorem alike_rows {top : Nat} {i i' : Image} : ∀ {x x' : Nat} {bs bs' : List Box}, InStep top i i' x x' bs bs' →
    bs'.map rowsOf = (bs.map rowsOf).map (movedBox 0 top)
  | _, _, [], [], _ => rfl
  | _, _, [], _ :: _, h => h.elim
  | _, _, _ :: _, [], h => h.elim
  | _, _, b :: bs, b' :: bs', h => by
    obtain ⟨_, a2, a3, _, _, a6⟩ := h
    rw [List.map_cons, List.map_cons, List.map_cons, alike_rows a6]
    congr 1
    unfold rowsOf movedBox
    rw [a2, a3]

/-! ### From the letters -/

/-- The column letter `k` is measured from, the letters being read from column `x` on. -/
def endFrom (x : Nat) (bs : List Box) : Nat → Nat
  | 0 => x
  | k + 1 => endBefore bs (k + 1)

theorem alike_of {top : Nat} {i i' : Image} (wf : i.WF) (wf' : i'.WF) : ∀ {x x' : Nat} {bs bs' : List Box} {as : List Image},
    (∀ b ∈ bs, ∃ x0, CharBox i x0 b) → (∀ b ∈ bs', ∃ x0, CharBox i' x0 b) → Pictures i bs as → Pictures i' bs' as →
    bs'.map Box.y = (bs.map fun b => b.y + top) →
    (∀ k b b', bs[k]? = some b → bs'[k]? = some b' → (endFrom x' bs' k + 4 < b'.x ↔ endFrom x bs k + 4 < b.x)) →
    InStep top i i' x x' bs bs'
  | _, _, [], [], _, _, _, _, _, _, _ => trivial
  | _, _, [], _ :: _, _, _, _, _, _, h, _ => by cases h
  | _, _, _ :: _, [], _, _, _, _, _, h, _ => by cases h
  | _, _, _ :: _, _ :: _, [], _, _, h, _, _, _ => h.elim
  | x, x', b :: bs, b' :: bs', a :: as, hb, hb', hp, hp', hy, hg => by
    obtain ⟨x0, c⟩ := hb b (by simp)
    obtain ⟨x0', c'⟩ := hb' b' (by simp)
    have c1 := c.right
    have c2 := c.bottom
    have c3 := c.wpos
    have c4 := c.hpos
    have c1' := c'.right
    have c2' := c'.bottom
    have c3' := c'.wpos
    have c4' := c'.hpos
    obtain ⟨r, e1, _, e3, e4⟩ := Props.C01_section i wf b.x b.y b.bounds (by omega) (by omega) c1 c2
    obtain ⟨r', f1, _, f3, f4⟩ := Props.C01_section i' wf' b'.x b'.y b'.bounds (by omega) (by omega) c1' c2'
    have r1 : r = a := by have := hp.1; rw [e1] at this; cases this; rfl
    have r2 : r' = a := by have := hp'.1; rw [f1] at this; cases this; rfl
    subst r1
    subst r2
    have eb : b'.bounds = b.bounds := by rw [← f3, ← e3]
    have ew : b'.w = b.w := congrArg Bounds.w eb
    have eh : b'.h = b.h := congrArg Bounds.h eb
    rw [List.map_cons, List.map_cons] at hy
    injection hy with hy1 hy2
    refine ⟨ew, eh, hy1, ?_, hg 0 b b' rfl rfl, ?_⟩
    · intro o
      rw [eb]
      unfold sectionInto
      rw [dataAt_eq wf (by omega) (by omega), dataAt_eq wf' (by omega) (by omega), Res.ok_bind, Res.ok_bind]
      apply sectionRows_same
      intro r k hr hk
      have hr : r < b.h := hr
      have hk : k < b.w := hk
      have g1 := e4 k r hk hr
      have g2 := f4 k r (by show k < b'.w; omega) (by show r < b'.h; omega)
      rw [g1, pix_eq (by omega) (by omega), pix_eq (by omega) (by omega)] at g2
      rw [show b'.y * i'.bounds.w + b'.x + r * i'.bounds.w + k = (b'.y + r) * i'.bounds.w + (b'.x + k) by
          simp only [Nat.add_mul]; omega,
        show b.y * i.bounds.w + b.x + r * i.bounds.w + k = (b.y + r) * i.bounds.w + (b.x + k) by
          simp only [Nat.add_mul]; omega]
      exact g2.symm
    · refine alike_of wf wf' (fun c hc => hb c (by simp [hc])) (fun c hc => hb' c (by simp [hc])) hp.2 hp'.2 hy2 ?_
      intro k d d' hd hd'
      have := hg (k + 1) d d' hd hd'
      cases k with
      | zero => exact this
      | succ k => exact this

/-- What the boxes of a line are. -/
theorem segment_boxes {i : Image} (wf : i.WF) (hw : 0 < i.bounds.w) (hh : 0 < i.bounds.h)
    (hs : i.bounds.w * i.bounds.h + i.bounds.w ≤ W32) {bs : List Box} (e : segment i = .ok bs) :
    ∀ b ∈ bs, ∃ x0, CharBox i x0 b := by
  intro b hb
  unfold segment at e
  rcases segmentFrom_ok wf hh hs (i.bounds.w + 1) 0 hw (by omega) (by omega) with ⟨bs', e1, _, _, h3, _⟩ | ⟨e1, _⟩
  · rw [e1] at e
    cases e
    exact (h3 b hb).2.1
  · rw [e1] at e
    cases e

theorem pictures_length {i : Image} : ∀ {bs : List Box} {as : List Image}, Pictures i bs as → bs.length = as.length
  | [], [], _ => rfl
  | [], _ :: _, h => h.elim
  | _ :: _, [], h => h.elim
  | _ :: _, _ :: _, h => by simp [pictures_length h.2]

theorem Spec.AlikeLines.alike {top : Nat} {i i' : Image} {bs bs' : List Box} {as : List Image}
    (h : AlikeLines top i i' bs bs' as) (wf : i.WF) (wf' : i'.WF) (hb : ∀ b ∈ bs, ∃ x0, CharBox i x0 b)
    (hb' : ∀ b ∈ bs', ∃ x0, CharBox i' x0 b) : InStep top i i' 0 0 bs bs' := by
  refine alike_of wf wf' hb hb' h.pictures h.pictures' h.rows ?_
  intro k b b' e e'
  have ef : ∀ cs : List Box, endFrom 0 cs k = endBefore cs k := by
    intro cs
    cases k <;> rfl
  rw [ef, ef]
  have := h.spaces k
  unfold Gap at this
  constructor
  · intro hk
    obtain ⟨c, ec, hc⟩ := this.1 ⟨b', e', hk⟩
    rw [e] at ec
    cases ec
    exact hc
  · intro hk
    obtain ⟨c, ec, hc⟩ := this.2 ⟨b, e, hk⟩
    rw [e'] at ec
    cases ec
    exact hc

end Ppocr

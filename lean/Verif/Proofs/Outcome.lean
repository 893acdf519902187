import Verif.Proofs.Session

/-! # Helper lemmas: how a run of `ocr2_extract_text` ends -/

namespace Ppocr
open Spec Props

theorem act_res_bind {α β : Type} (a : Act α) (f : α → Act β) : (a >>= f).res = a.res >>= fun x => (f x).res := by
  show (Act.bind a f).res = _
  unfold Act.bind
  cases a.res <;> rfl

theorem res_pure {α : Type} (x : α) : (pure x : Act α).res = .ok x := rfl

theorem res_bind_same {α β : Type} {r : Res α} {f g : α → Res β} (h : ∀ x, r = .ok x → f x = g x) : (r >>= f) = (r >>= g) := by
  cases r with
  | ok x => exact h x rfl
  | _ => rfl

theorem showWords_res (g : RGlyphs) : ∀ vs, (showWords g vs).res = printWords g vs
  | [] => rfl
  | v :: vs => by
    unfold showWords printWords
    rw [act_res_bind]
    refine res_bind_same fun w _ => ?_
    rw [act_res_bind]
    exact showWords_res g vs

section
variable {P : Type} [Dbl P]

theorem newLetterOut_res (s : Setup P) (g : RGlyphs) (l : Line P) {a : Image} {t : List Nat} (hv : l.ctx.img.view l.heap = .ok a)
    (ht : imageShow a = .ok t) : (newLetterOut s g l).res = newLetter s g l := by
  unfold newLetterOut newLetter
  rw [act_res_bind]
  show (l.ctx.img.view l.heap >>= _) = _
  rw [hv, Res.ok_bind, act_res_bind]
  show (imageShow a >>= _) = _
  rw [ht, Res.ok_bind, act_res_bind]
  show (Res.ok () >>= _) = _
  rw [Res.ok_bind, act_res_bind]
  refine res_bind_same fun hc _ => ?_
  obtain ⟨h, c⟩ := hc
  simp only []
  rw [act_res_bind]
  refine res_bind_same fun img _ => ?_
  rw [act_res_bind]
  refine res_bind_same fun img90 _ => ?_
  rw [act_res_bind]
  refine res_bind_same fun o _ => ?_
  rw [act_res_bind]
  refine res_bind_same fun key _ => ?_
  rw [act_res_bind]
  refine res_bind_same fun mr _ => ?_
  obtain ⟨m, r⟩ := mr
  simp only []
  rw [act_res_bind, showWords_res]
  refine res_bind_same fun _ _ => ?_
  rw [act_res_bind]
  rfl

theorem mapM_some_length : ∀ {l : List (Option Pixel)} {w : List Pixel}, l.mapM id = some w → w.length = l.length
  | [], w, h => by
    simp at h
    rw [h]; rfl
  | a :: l, w, h => by
    rw [List.mapM_cons] at h
    cases a with
    | none => cases h
    | some a =>
      cases hl : l.mapM id with
      | none => rw [hl] at h; cases h
      | some v =>
        rw [hl] at h
        cases h
        simp [mapM_some_length hl]

theorem load_length {h : Heap} {p : UPtr} {n : Nat} {v : List Pixel} (e : h.load p n = .ok v) : v.length = n := by
  unfold Heap.load at e
  obtain ⟨l, _, e⟩ := Res.bind_eq_ok.1 e
  split at e
  · rename_i hle
    cases hm : (l.take n).mapM id with
    | none => rw [hm] at e; cases e
    | some w =>
      rw [hm, Res.ok.injEq] at e
      subst e
      have := mapM_some_length hm
      rw [this, List.length_take]
      omega
  · cases e

theorem doImg_bounds {h h' : Heap} {c c' : Ctx} {b : Bounds} {maker : Out Pixel → Res (Out Pixel)} (e : c.doImg h b maker = .ok (h', c')) :
    c'.img.bounds = b := by
  unfold Ctx.doImg Ctx.reserve at e
  obtain ⟨⟨h1, c1⟩, e1, e⟩ := Res.bind_eq_ok.1 e
  obtain ⟨⟨h2, c2⟩, _, e1⟩ := Res.bind_eq_ok.1 e1
  simp only [] at e1
  obtain ⟨⟨h3, i3⟩, e2, e1⟩ := Res.bind_eq_ok.1 e1
  simp only [Res.pure_eq, Res.ok.injEq, Prod.mk.injEq] at e1
  unfold ImageRef.assign at e2
  obtain ⟨h4, _, e2⟩ := Res.bind_eq_ok.1 e2
  simp only [Res.pure_eq, Res.ok.injEq, Prod.mk.injEq] at e2
  simp only [] at e
  obtain ⟨l, _, e⟩ := Res.bind_eq_ok.1 e
  obtain ⟨o, _, e⟩ := Res.bind_eq_ok.1 e
  simp only [Res.pure_eq, Res.ok.injEq, Prod.mk.injEq] at e
  rw [← e.2, ← e1.2, ← e2.2]

theorem letterStepOut_res (s : Setup P) (g : RGlyphs) (i : Image) (x : Nat) (b : Box) (l : Line P) (hb : b.w * b.h < W32) :
    (letterStepOut s g i x b l).res = letterStep s g i x b l := by
  unfold letterStepOut letterStep
  rw [act_res_bind]
  refine res_bind_same fun hc e => ?_
  obtain ⟨h, c⟩ := hc
  simp only []
  rw [act_res_bind]
  have hlook : ∀ l' : Line P, l'.heap = h → l'.ctx = c → (lookLetterOut s g l').res = lookLetter s g l' := by
    intro l' e1 e2
    unfold lookLetterOut lookLetter
    rw [act_res_bind]
    refine res_bind_same fun a ha => ?_
    rw [act_res_bind]
    refine res_bind_same fun hit _ => ?_
    cases hit with
    | some r => rfl
    | none =>
      have ha' : l'.ctx.img.view l'.heap = .ok a := ha
      have hab := ha
      rw [show (mute (l'.ctx.img.view l'.heap)).res = l'.ctx.img.view l'.heap from rfl, e1, e2] at hab
      unfold ImageRef.view at hab
      obtain ⟨v, hv, hab⟩ := Res.bind_eq_ok.1 hab
      simp only [Res.pure_eq, Res.ok.injEq] at hab
      have hbd := doImg_bounds (show l.ctx.doImg l.heap b.bounds (fun o => sectionInto i o b.x b.y b.bounds) = Res.ok (h, c) from e)
      have hlen := load_length hv
      have : ∃ t, imageShow a = .ok t := by
        unfold imageShow
        rw [showRows_ok _ 0 (by
          rw [← hab]
          show 0 + c.img.bounds.h * c.img.bounds.w ≤ v.length
          rw [hlen, hbd]
          show _ ≤ umul b.w b.h
          rw [umul, Nat.mod_eq_of_lt hb, Nat.mul_comm b.w]
          show 0 + b.h * b.w ≤ _
          omega), Res.ok_bind]
        exact ⟨_, rfl⟩
      obtain ⟨t, ht⟩ := this
      exact newLetterOut_res s g l' ha' ht
  rw [hlook _ rfl rfl]
  rfl

theorem lineLoopOut_res (s : Setup P) (g : RGlyphs) {i : Image} (wf : i.WF) (hh : 0 < i.bounds.h)
    (hsz : i.bounds.w * i.bounds.h + i.bounds.w ≤ W32) : ∀ (fuel x : Nat) (l : Line P), x < i.bounds.w →
    (lineLoopOut s g i fuel x l).res = lineLoop s g i fuel x l
  | 0, _, _, _ => rfl
  | fuel + 1, x, l, hx => by
    unfold lineLoopOut lineLoop
    rw [act_res_bind]
    refine res_bind_same fun b e => ?_
    have e : makeBox i x 0 i.bounds = .ok b := e
    by_cases hb : b.truthy = true
    · rw [if_pos hb, if_pos hb, act_res_bind]
      have hc : CharBox i x b := by
        rcases makeBox_ok wf hx hh hsz with ⟨b', k1, k2, k3⟩ | ⟨b', k1, k2, _, _⟩ | ⟨k1, _⟩
        · rw [e, Res.ok.injEq] at k1; rw [k1]; exact k3
        · rw [e, Res.ok.injEq] at k1; rw [k1, k2] at hb; cases hb
        · rw [e] at k1; cases k1
      have h1 := hc.right
      have h2 := hc.bottom
      have h3 : b.w * b.h ≤ i.bounds.w * i.bounds.h := Nat.mul_le_mul (by omega) (by omega)
      rw [letterStepOut_res s g i x b l (by have := hc.wpos; omega)]
      refine res_bind_same fun l' _ => ?_
      have hlt : uadd b.x b.w < i.bounds.w := by
        rw [uadd, Nat.mod_eq_of_lt (by have := wf.w_lt; omega)]
        have := hc.notLast
        omega
      exact lineLoopOut_res s g wf hh hsz fuel _ l' hlt
    · rw [if_neg hb, if_neg hb]
      rfl

/-- With the report and the end. -/
theorem extractTextOut_res (nan : List Nat) (s : Setup P) (g : RGlyphs) (infos : List WordInfo) (E : List FNode) {i : Image} (wf : i.WF)
    (hw : 0 < i.bounds.w) (hh : 0 < i.bounds.h) (hsz : i.bounds.w * i.bounds.h + i.bounds.w ≤ W32) :
    (extractTextOut nan s g infos E i).res = extractText s g infos E i >>= fun _ => .ok 0 := by
  unfold extractTextOut extractText
  rw [act_res_bind, lineLoopOut_res s g wf hh hsz _ _ _ hw, Res.bind_assoc]
  refine res_bind_same fun l _ => ?_
  rw [act_res_bind, Res.bind_assoc]
  refine res_bind_same fun st _ => ?_
  rw [act_res_bind, Res.bind_assoc]
  refine res_bind_same fun p _ => ?_
  obtain ⟨_, st'⟩ := p
  simp only []
  rw [act_res_bind, Res.bind_assoc]
  refine res_bind_same fun amb _ => ?_
  rw [act_res_bind, Res.bind_assoc]
  refine res_bind_same fun p _ => ?_
  obtain ⟨t, n⟩ := p
  simp only []
  rw [act_res_bind]
  show (Res.ok () >>= _) = _
  rw [Res.ok_bind, act_res_bind, Res.bind_assoc]
  rfl

theorem loadDictOut_res (f : Option TextFile) : (loadDictOut f).res = loadDict f := by
  cases f with
  | none => rfl
  | some f =>
    unfold loadDictOut
    rw [act_res_bind]
    show (loadDict (some f) >>= _) = _
    cases loadDict (some f) <;> rfl

end

end Ppocr

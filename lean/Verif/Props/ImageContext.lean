import Verif.Proofs.ImageContext
import Verif.Props.Image

/-! # C55: the pixels of the current letter -/

namespace Ppocr.Props
open Ppocr Spec

/-- `n` cells from a place on are in a block that is allocated. -/
def Inside (h : Heap) (p : UPtr) (n : Nat) : Prop := ∃ l, h.cells p = .ok l ∧ n ≤ l.length

/-- `n` cells from `p` on and `m` cells from `q` on have none in common. -/
def Apart (p : UPtr) (n : Nat) (q : UPtr) (m : Nat) : Prop :=
  ∀ a b, p = some a → q = some b → a.block = b.block → a.off + n ≤ b.off ∨ b.off + m ≤ a.off

/-- A call that may be made, given the picture it shows: the maker writes all pixels, and twice their number fits in
32 bits. -/
inductive Good : Call → Option Image → Prop
  | img (i : Image) (maker : Out Pixel → Res (Out Pixel)) : i.WF → 2 * (i.bounds.w * i.bounds.h) < W32 → Makes maker i →
      Good (.img i.bounds maker) (some i)
  | img90 : Good .img90 none

/-- The calls and the last picture. -/
inductive Calls : List Call → Image → Prop
  | nil : Calls [] noImage
  | img (cs : List Call) (j i : Image) (call : Call) : Calls cs j → Good call (some i) → Calls (cs ++ [call]) i
  | img90 (cs : List Call) (j : Image) (call : Call) : Calls cs j → Good call none → Calls (cs ++ [call]) j

/-- **C55** as stated: after any calls both images are inside the buffer, apart, and `img90` is the rotation of the last
picture; all is deleted once at the end. -/
def C55_statement : Prop :=
  ∀ (cs : List Call) (i : Image), Calls cs i → ∃ h c, Ctx.run [] Ctx.init cs = .ok (h, c) ∧
    Inside h c.img.data c.img.bounds.area ∧ Inside h c.img90.data c.img90.bounds.area ∧
    Apart c.img.data c.img.bounds.area c.img90.data c.img90.bounds.area ∧
    (∃ r, c.img90.view h = .ok r ∧ i.rotate90 = .ok r) ∧ ∃ h', c.destroy h = .ok h' ∧ Dead h'

/-- A maker of `n` equal pixels. -/
def px (p : Pixel) (n : Nat) : Out Pixel → Res (Out Pixel) := fun o => copyTo (List.replicate n p) 0 n o

theorem px_makes (p : Pixel) (w h : Nat) : Makes (px p (w * h)) ⟨⟨w, h⟩, List.replicate (w * h) p⟩ := by
  intro n hn
  rw [px, copyTo_ok _ _ _ _ (by simp) (by simpa using hn)]
  simp

/-- It is false: a larger letter deletes the buffer `img90` points to, until `img90` is called again. -/
theorem C55_dangling : ¬ C55_statement := by
  intro hs
  have g1 : Good (.img ⟨1, 1⟩ (px 120 1)) (some ⟨⟨1, 1⟩, [120]⟩) :=
    .img ⟨⟨1, 1⟩, [120]⟩ _ ⟨rfl, by decide, by decide, by decide⟩ (by decide) (px_makes 120 1 1)
  have g2 : Good (.img ⟨2, 1⟩ (px 120 2)) (some ⟨⟨2, 1⟩, [120, 120]⟩) :=
    .img ⟨⟨2, 1⟩, [120, 120]⟩ _ ⟨rfl, by decide, by decide, by decide⟩ (by decide) (px_makes 120 2 1)
  obtain ⟨h, c, e, _, ⟨l, hl, _⟩, _⟩ := hs _ _ (.img _ _ _ _ (.img90 _ _ _ (.img _ _ _ _ .nil g1) .img90) g2)
  have : Ctx.run [] Ctx.init ([] ++ [Call.img ⟨1, 1⟩ (px 120 1)] ++ [.img90] ++ [.img ⟨2, 1⟩ (px 120 2)]) =
      .ok ([none, some [some 120, some 120, none, none]],
        ⟨some ⟨1, 0⟩, 4, ⟨⟨2, 1⟩, some ⟨1, 0⟩⟩, ⟨⟨1, 1⟩, some ⟨0, 1⟩⟩⟩) := by decide
  rw [this] at e
  cases e
  revert hl
  simp [Heap.cells]

theorem run_append (cs : List Call) (call : Call) : ∀ (h : Heap) (c : Ctx), Ctx.run h c (cs ++ [call]) =
    (Ctx.run h c cs >>= fun r => Ctx.run r.1 r.2 [call]) := by
  induction cs with
  | nil => intro h c; rfl
  | cons d cs ih =>
    intro h c
    cases d with
    | img b m =>
      simp only [List.cons_append, Ctx.run]
      rw [Res.bind_assoc]
      congr 1
      funext r
      exact ih r.1 r.2
    | img90 =>
      simp only [List.cons_append, Ctx.run]
      rw [Res.bind_assoc]
      congr 1
      funext r
      exact ih r.1 r.2

/-- What all calls keep. -/
theorem run_inv {cs : List Call} {i : Image} (hc : Calls cs i) : ∃ h c l, Ctx.run [] Ctx.init cs = .ok (h, c) ∧
    c.Inv h i l := by
  induction hc with
  | nil => exact ⟨_, _, _, rfl, inv_init⟩
  | img cs j i call _ g ih =>
    obtain ⟨h, c, l, e, inv⟩ := ih
    cases g with
    | img i maker wf hs hm =>
      obtain ⟨h', c', l', e', inv', _⟩ := doImg_ok inv wf hs hm
      refine ⟨h', c', l', ?_, inv'⟩
      rw [run_append, e, Res.ok_bind]
      simp only [Ctx.run, e', Res.ok_bind]
  | img90 cs j call _ g ih =>
    obtain ⟨h, c, l, e, inv⟩ := ih
    cases g
    obtain ⟨h', l', e', inv', _⟩ := doImg90_ok inv
    refine ⟨h', _, l', ?_, inv'⟩
    rw [run_append, e, Res.ok_bind]
    simp only [Ctx.run, e', Res.ok_bind]

theorem inv_img {h : Heap} {c : Ctx} {i : Image} {l : List (Option Pixel)} (inv : c.Inv h i l) :
    Inside h c.img.data c.img.bounds.area ∧ c.img.view h = .ok i := by
  have ha := area_eq inv.wf
  have hr := inv.room
  have hl := inv.wf.len
  rw [inv.img]
  refine ⟨⟨l, inv.mem.cells0, by simp only []; omega⟩, ?_⟩
  rw [ImageRef.view]
  simp only [ha, ← hl]
  rw [loadPix_ok inv.mem.cells0 inv.pixels]; rfl

theorem inv_destroy {h : Heap} {c : Ctx} {i : Image} {l : List (Option Pixel)} (inv : c.Inv h i l) :
    ∃ h', c.destroy h = .ok h' ∧ Dead h' := by
  obtain ⟨h', e, hd⟩ := inv.mem.free
  exact ⟨h', by simp only [Ctx.destroy, ImageRef.release, free_none, Res.ok_bind, e], hd⟩

/-- **C55**, what holds after any calls: `img` is inside the buffer and shows the last picture, and everything is deleted
exactly once at the end. Missing: `img90` between a call of `img` and the next of `img90`, see `C55_dangling`. -/
theorem C55_calls_partial (cs : List Call) (i : Image) (hc : Calls cs i) : ∃ h c, Ctx.run [] Ctx.init cs = .ok (h, c) ∧
    Inside h c.img.data c.img.bounds.area ∧ c.img.view h = .ok i ∧ ∃ h', c.destroy h = .ok h' ∧ Dead h' := by
  obtain ⟨h, c, l, e, inv⟩ := run_inv hc
  exact ⟨h, c, e, (inv_img inv).1, (inv_img inv).2, inv_destroy inv⟩

/-- And after any calls of which the last is `img90`: both are inside the buffer and apart, `img` still shows the last
picture and `img90` its rotation. -/
theorem C55_img90 (cs : List Call) (i : Image) (hc : Calls cs i) : ∃ h c r,
    Ctx.run [] Ctx.init (cs ++ [.img90]) = .ok (h, c) ∧
    Inside h c.img.data c.img.bounds.area ∧ Inside h c.img90.data c.img90.bounds.area ∧
    Apart c.img.data c.img.bounds.area c.img90.data c.img90.bounds.area ∧
    c.img.view h = .ok i ∧ c.img90.view h = .ok r ∧ r.bounds = ⟨i.bounds.h, i.bounds.w⟩ ∧
    ∀ x y, x < i.bounds.h → y < i.bounds.w → pix r x y = pix i (i.bounds.w - 1 - y) x := by
  obtain ⟨h, c, l, e, inv⟩ := run_inv hc
  obtain ⟨h', l', e', inv', hp⟩ := doImg90_ok inv
  have wf := inv.wf
  have ha := area_eq wf
  have hl := wf.len
  have hr := inv'.room
  have htl : (turned i).data.length = i.data.length := by
    simp only [turned, grid_length]; omega
  have hta : (turned i).bounds.area = i.data.length := by
    rw [hl, ← ha, turned, Bounds.area, Bounds.area, umul, umul, Nat.mul_comm]
  refine ⟨h', _, turned i, ?_, (inv_img inv').1, ⟨l'.drop i.data.length, ?_, ?_⟩, ?_, (inv_img inv').2, ?_, rfl, ?_⟩
  · rw [run_append, e, Res.ok_bind]
    simp only [Ctx.run, e', Res.ok_bind]
  · exact inv'.mem.cells (by omega)
  · simp only [hta, List.length_drop]; omega
  · intro a b h1 h2 _
    simp only [inv.img] at h1 ⊢
    simp only [h1, shift, Option.map_some, Option.some.injEq] at h2
    subst h2
    left
    simp only [ha, ← hl]; omega
  · rw [ImageRef.view]
    have hld : h'.load (shift c.data i.data.length) (turned i).data.length = .ok (turned i).data :=
      loadPix_ok (l := l'.drop i.data.length) (by exact inv'.mem.cells (by omega)) hp
    rw [htl] at hld
    simp only [hta]
    rw [hld]
    rfl
  · intro x y hx hy
    rw [turned, pix_grid _ hx hy, pix_pixD wf (by omega) hx]

/-- The letters the program cuts out can be shown: `section` of a box inside a picture (`main/ocr2_extract_text.cpp`
L121-123) writes the pixels of the box, those of `Image::section` (C01). -/
theorem C55_section (i : Image) (wf : i.WF) (x y : Nat) (b : Bounds) (hw : 0 < b.w) (hh : 0 < b.h)
    (hx : b.w + x ≤ i.bounds.w) (hy : b.h + y ≤ i.bounds.h) :
    ∃ s : Image, i.section x y b = .ok s ∧ s.WF ∧ s.bounds = b ∧ Makes (fun o => sectionInto i o x y b) s := by
  obtain ⟨s, hs, hsw, hb, hp⟩ := C01_section i wf x y b (by omega) (by omega) (by omega) (by omega)
  have hg : s = ⟨b, grid b.h b.w fun r c => pixD i (x + c) (y + r)⟩ := by
    have hsmall := hsw.small
    rw [hb] at hsmall
    have hgw := grid_WF (fun r c => pixD i (x + c) (y + r)) (show b.w < W32 by have := wf.w_lt; omega)
      (show b.h < W32 by have := wf.h_lt; omega) hsmall
    refine Image.ext_pix hsw hgw ⟨by rw [hb], by rw [hb], ?_⟩
    intro c l
    by_cases hcl : c < b.w ∧ l < b.h
    · obtain ⟨hc, hl⟩ := hcl
      rw [hp c l hc hl, pix_grid _ hc hl, pix_pixD wf (by omega) (by omega)]
    · rw [pix_none (by rw [hb]; exact hcl), pix_none hcl]
  refine ⟨s, hs, hsw, hb, ?_⟩
  intro n hn
  rw [hb] at hn
  rw [hg]
  exact sectionInto_ok wf (by omega) (by omega) hx hy rfl hn

/-- Twice the number of pixels is computed in 32 bits: for a letter of 2147483648 pixels nothing is allocated, and the
first write is undefined. -/
theorem C55_overflow : Ctx.run [] Ctx.init [.img ⟨65536, 32768⟩ (px 120 1)] = .ub := by decide

/-- Two letters, the second one smaller, and their rotations. -/
example : (do
    let (h, c) ← Ctx.run [] Ctx.init [.img ⟨2, 2⟩ (fun o => copyTo [120, 45, 120, 120] 0 4 o), .img90,
      .img ⟨2, 1⟩ (fun o => copyTo [120, 45] 0 2 o), .img90]
    let a ← c.img.view h
    let b ← c.img90.view h
    return (a, b)) = .ok (⟨⟨2, 1⟩, [120, 45]⟩, ⟨⟨1, 2⟩, [45, 120]⟩) := by decide

end Ppocr.Props

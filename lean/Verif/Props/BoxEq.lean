import Verif.Props.Box

/-! # C127: comparing boxes -/

namespace Ppocr.Props
open Ppocr Spec

/-- **C127** is false: the places of the boxes are not compared. Two letters of a line, with boxes that are called equal. -/
theorem C127_false : ∃ (i : Image) (a b : Box), i.WF ∧ segment i = .ok [a, b] ∧ a ≠ b ∧ a.eq b = true :=
  ⟨⟨⟨4, 2⟩, [120, 45, 120, 45, 120, 45, 120, 45]⟩, ⟨0, 0, 1, 2⟩, ⟨2, 0, 1, 2⟩, ⟨by decide, by decide, by decide, by decide⟩, by decide, by decide, by decide⟩

/-- **C127**, partial: for boxes at the same place. Missing: `C127_false`; for others only the sizes count (`C127_size`). -/
theorem C127_place_partial (a b : Box) (hx : a.x = b.x) (hy : a.y = b.y) : a.eq b = true ↔ a = b := by
  obtain ⟨ax, ay, aw, ah⟩ := a
  obtain ⟨bx, by', bw, bh⟩ := b
  dsimp only at hx hy
  subst hx hy
  simp [Box.eq]

/-- Wherever they are, boxes of the same size are called equal, and no others. -/
theorem C127_size (a b : Box) (x y x' y' : Nat) :
    a.eq b = Box.eq ⟨x, y, a.w, a.h⟩ ⟨x', y', b.w, b.h⟩ ∧ (a.eq b = true ↔ (⟨a.w, a.h⟩ : Bounds) = ⟨b.w, b.h⟩) := by
  simp [Box.eq]

/-- For the letters of a line: all boxes are different, whatever `==` says, and none is called equal to an empty box, by which
the end of the line is told. -/
theorem C127_letters (i : Image) (wf : i.WF) (hw : 0 < i.bounds.w) (hh : 0 < i.bounds.h)
    (hsz : i.bounds.w * i.bounds.h + i.bounds.w ≤ 2 ^ 32) (hrow : 1 < i.bounds.h ∨ ¬ BlankCol i (i.bounds.w - 1)) :
    ∃ bs, segment i = .ok bs ∧ bs.Pairwise (· ≠ ·) ∧ ∀ b ∈ bs, ∀ e : Box, e.truthy = false → b.eq e = false ∧ e.eq b = false := by
  obtain ⟨bs, h1, _, h2, h3⟩ := C13_segmentation_partial i wf hw hh hsz hrow
  have hp : ∀ b ∈ bs, 0 < b.w ∧ 0 < b.h := by
    intro b hb
    obtain ⟨⟨x0, c⟩, _⟩ := h2 b hb
    exact ⟨c.wpos, c.hpos⟩
  refine ⟨bs, h1, ?_, ?_⟩
  · refine (List.Pairwise.and_mem.1 h3).imp ?_
    rintro a b ⟨ha, _, hab⟩ rfl
    have := (hp a ha).1
    omega
  · intro b hb e he
    have := hp b hb
    unfold Box.truthy at he
    unfold Box.eq
    simp only [Bool.and_eq_false_iff, decide_eq_false_iff_not, Decidable.not_not, ne_eq] at he ⊢
    omega

example : segment line63 = .ok [⟨1, 1, 2, 2⟩, ⟨4, 1, 1, 2⟩] ∧ Box.eq ⟨1, 1, 2, 2⟩ ⟨4, 1, 1, 2⟩ = false ∧
    Box.eq ⟨1, 1, 2, 2⟩ ⟨0, 0, 0, 0⟩ = false ∧ Box.eq ⟨1, 1, 2, 2⟩ ⟨7, 3, 2, 2⟩ = true := by decide

end Ppocr.Props

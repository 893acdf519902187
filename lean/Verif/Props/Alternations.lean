import Verif.Proofs.Alternations

/-! # C20: alternations -/

namespace Ppocr.Props
open Ppocr Spec

/-- **C20**: for every two non-empty images (the second one is the picture turned by 90 degrees in the
code) of less than 2^31 rows and columns, the seven entries are the first colour and the number of runs
of the documented strips; nothing outside the images is read. -/
theorem C20_entries (i r : Image) (wi : i.WF) (wr : r.WF) (hiw : 0 < i.bounds.w) (hih : 0 < i.bounds.h)
    (hrw : 0 < r.bounds.w) (hrh : 0 < r.bounds.h) (h1 : 2 * i.bounds.h < W32)
    (h2 : i.bounds.w + 1 < W32) (h3 : r.bounds.w + 1 < W32) :
    alternationsLoad i r = .ok (documented i r) := by
  have hr := wr.h_lt
  have e0 : altFirst i = .ok (if i.bounds.h < 2 then (false, 0) else runs (strip i ((i.bounds.h - 2) / 3))) := by
    unfold altFirst
    split
    · rfl
    · rw [usub_eq (by omega) (by omega), altRow_ok wi hiw h2 (by omega)]
  unfold alternationsLoad
  simp only [e0, Res.ok_bind]
  rw [umul_eq (by omega), usub_eq (by omega) (by omega), altRow_ok wi hiw h2 (by omega)]
  simp only [Res.ok_bind]
  rw [altRows_ok wi hiw h2 (by omega)]
  simp only [Res.ok_bind]
  rw [usub_eq (by omega) (by omega), altRows_ok wi hiw h2 (by omega)]
  simp only [Res.ok_bind]
  rw [usub_eq (by omega) (by omega), altRow_ok wr hrw h3 (by omega)]
  simp only [Res.ok_bind]
  rw [usub_eq (by omega) (by omega), altRows_ok wr hrw h3 (by omega)]
  simp only [Res.ok_bind]
  rw [altRows_ok wr hrw h3 (by omega)]
  simp only [Res.ok_bind, Res.pure_eq, documented, Nat.mul_comm i.bounds.h 2]

/-- A 4×3 image and the same turned by 90 degrees. -/
example : alternationsLoad ⟨⟨4, 3⟩, [120, 45, 45, 120, 120, 120, 45, 45, 45, 45, 120, 45]⟩
    ⟨⟨3, 4⟩, [120, 45, 45, 45, 45, 120, 45, 120, 45, 120, 120, 45]⟩ =
    .ok [(true, 3), (true, 2), (true, 3), (false, 3), (false, 2), (true, 2), (true, 2)] := by decide

/-- A single pixel: the first entry is a dummy, the empty thirds count as one run without letter. -/
example : alternationsLoad ⟨⟨1, 1⟩, [120]⟩ ⟨⟨1, 1⟩, [120]⟩ =
    .ok [(false, 0), (true, 1), (false, 1), (false, 1), (true, 1), (false, 1), (false, 1)] := by decide

/-- The emptiness hypothesis is needed: an image without columns is read out of bounds. -/
theorem C20_empty (h : Nat) (r : Image) :
    alternationsLoad ⟨⟨0, h⟩, []⟩ r = .ub := by
  have e : ∀ y, altRow ⟨⟨0, h⟩, []⟩ y = .ub := by
    intro y
    unfold altRow makeAlternations Image.toSizeT
    simp [umul, uadd, normalPixel, rd]
  have e0 : ∃ a, altFirst ⟨⟨0, h⟩, []⟩ = .ub ∨ altFirst ⟨⟨0, h⟩, []⟩ = .ok a := by
    refine ⟨(false, 0), ?_⟩
    unfold altFirst
    split
    · exact Or.inr rfl
    · exact Or.inl (e _)
  unfold alternationsLoad
  obtain ⟨a, h0 | h0⟩ := e0
  · rw [h0]; rfl
  · rw [h0]
    simp only [Res.ok_bind, e, Res.ub_bind]

example : alternationsLoad ⟨⟨0, 1⟩, []⟩ ⟨⟨1, 0⟩, []⟩ = .ub := by decide

end Ppocr.Props

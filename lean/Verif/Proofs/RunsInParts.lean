import Verif.Spec.Shell
import Verif.Model.BoxTool

/-! # The loops over the files of `write_glyphs`, `box` and `show_glyphs` (C126) -/

namespace Ppocr
open Spec

theorem ran_ok (w : Written) : w.ran.code = .ok 0 ↔ w.ended = .ok () := by
  obtain ⟨o, e⟩ := w
  cases e <;> simp [Written.ran, bind, pure, Res.bind]

/-- Something is given out before. -/
theorem ran_front (o : List Nat) (w x : Written) (b : Ran) (h : w.ran = inTurn x.ran b) :
    Written.ran ⟨o ++ w.out, w.ended⟩ = inTurn (Written.ran ⟨o ++ x.out, x.ended⟩) b := by
  unfold inTurn at h ⊢
  by_cases hc : x.ended = .ok ()
  · rw [if_pos ((ran_ok x).2 hc)] at h
    rw [if_pos ((ran_ok ⟨o ++ x.out, x.ended⟩).2 hc)]
    simp only [Written.ran, Ran.mk.injEq] at h ⊢
    exact ⟨by rw [h.1, List.append_assoc], h.2⟩
  · rw [if_neg (mt (ran_ok x).1 hc)] at h
    rw [if_neg (mt (ran_ok ⟨o ++ x.out, x.ended⟩).1 hc)]
    simp only [Written.ran, Ran.mk.injEq] at h ⊢
    exact ⟨by rw [h.1], h.2⟩

theorem writeGlyphs_append (lum : Nat) (bs : List Job) : ∀ as : List Job,
    (writeGlyphs lum (as ++ bs)).ran = inTurn (writeGlyphs lum as).ran (writeGlyphs lum bs).ran
  | [] => by
    show _ = inTurn (Written.ran ⟨[], .ok ()⟩) _
    unfold inTurn
    rw [if_pos ((ran_ok _).2 rfl)]
    rfl
  | a :: as => by
    have ih := writeGlyphs_append lum bs as
    rw [List.cons_append, writeGlyphs, writeGlyphs]
    cases he : (loadFile lum a).ended with
    | ok u =>
      exact ran_front _ _ _ _ ih
    | _ =>
      dsimp only
      unfold inTurn
      rw [if_neg]
      intro h
      have := (ran_ok _).1 h
      rw [he] at this
      cases this

theorem boxFiles_append (D : Disk) (lum : Nat) (bs : List (List Nat)) : ∀ as : List (List Nat),
    (boxFiles D lum (as ++ bs)).ran = inTurn (boxFiles D lum as).ran (boxFiles D lum bs).ran
  | [] => by
    show _ = inTurn (Written.ran ⟨[], .ok ()⟩) _
    unfold inTurn
    rw [if_pos ((ran_ok _).2 rfl)]
    rfl
  | a :: as => by
    have ih := boxFiles_append D lum bs as
    rw [List.cons_append, boxFiles, boxFiles]
    cases he : (boxFile lum a (D.image a)).ended with
    | ok u =>
      exact ran_front _ _ _ _ ih
    | _ =>
      dsimp only
      unfold inTurn
      rw [if_neg]
      intro h
      have := (ran_ok _).1 h
      rw [he] at this
      cases this

theorem showGlyphs_append (lum : Nat) (bs : List FileEnv) : ∀ as : List FileEnv,
    (showGlyphs lum (as ++ bs)).ran = inTurn (showGlyphs lum as).ran (showGlyphs lum bs).ran
  | [] => by
    show _ = inTurn (Written.ran ⟨[], .ok ()⟩) _
    unfold inTurn
    rw [if_pos ((ran_ok _).2 rfl)]
    rfl
  | a :: as => by
    have ih := showGlyphs_append lum bs as
    rw [List.cons_append, showGlyphs, showGlyphs]
    cases he : (showFile lum a).ended with
    | ok u =>
      exact ran_front _ _ _ _ ih
    | _ =>
      dsimp only
      unfold inTurn
      rw [if_neg]
      intro h
      have := (ran_ok _).1 h
      rw [he] at this
      cases this

end Ppocr

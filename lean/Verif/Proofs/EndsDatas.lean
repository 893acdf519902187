import Verif.Proofs.EndsTools

/-! # `write_datas` comes to an end (C121) -/

namespace Ppocr
open Spec

theorem read_suffix (s : IS) (n : Nat) : (s.read n).2.rest <:+ s.rest := by
  have h := sentry_suffix s true
  unfold IS.read
  rcases e : s.sentry true with ⟨s', b⟩
  rw [e] at h
  cases b with
  | false => exact h
  | true =>
    dsimp only
    split
    · exact (List.drop_suffix _ _).trans h
    · exact List.nil_suffix

theorem ignoreLines_suffix : ∀ (n : Nat) (s : IS), (ignoreLines n s).rest <:+ s.rest
  | 0, _ => List.suffix_refl _
  | n + 1, s => (ignoreLines_suffix n _).trans (ignore_suffix s 10)

theorem boundsRead_suffix (s : IS) (o : Bounds) : (boundsRead s o).2.rest <:+ s.rest := by
  unfold boundsRead
  exact (uint_suffix _ _ _).trans (uint_suffix _ _ _)

theorem imgRead_suffix (s : IS) (o : Image) : (imgRead s o).2.rest <:+ s.rest := by
  unfold imgRead
  have h := boundsRead_suffix s ⟨0, 0⟩
  dsimp only
  split
  · exact h
  · have h1 : ((boundsRead s ⟨0, 0⟩).2.bump.read (boundsRead s ⟨0, 0⟩).1.area).2.rest <:+ s.rest :=
      ((read_suffix _ _).trans (List.drop_suffix 1 _)).trans h
    split <;> exact h1

theorem imgRead_bounds {s : IS} {o : Image} (hf : (imgRead s o).2.fail = false) :
    (imgRead s o).1.bounds = (boundsRead s ⟨0, 0⟩).1 := by
  unfold imgRead at hf ⊢
  dsimp only at hf ⊢
  split at hf
  · rename_i h1
    rw [h1] at hf
    cases hf
  · rename_i h1
    rw [if_neg h1]
    split at hf
    · rename_i h2
      rw [h2] at hf
      cases hf
    · rename_i h2
      rw [if_neg h2]

theorem datasLoop_ends {t : List Nat} (small : ∀ s : IS, s.rest <:+ t → (boundsRead s ⟨0, 0⟩).1.w * (boundsRead s ⟨0, 0⟩).1.h < W32) :
    ∀ (fuel : Nat) (s : IS) (d : Datas), s.rest <:+ t → s.rest.length < fuel → Ends (datasLoop fuel s d)
  | 0, _, _, _, h => by omega
  | fuel + 1, s, d, hs, h => by
    unfold datasLoop
    dsimp only
    split
    · infer_instance
    · rename_i hn
      have hn : ((imgRead s ⟨⟨0, 0⟩, []⟩).2.uint maxU 0).2.fail = false := by simpa using hn
      have hi := (uint_lt hn).2
      have hlt := imgRead_lt hi
      have f : AllCells (imgRead s ⟨⟨0, 0⟩, []⟩).1 := by
        have h1 := imgRead_full hi
        have h2 := small s hs
        rw [← imgRead_bounds hi] at h2
        refine ⟨?_, h2⟩
        rw [← Nat.mod_eq_of_lt h2]
        exact h1
      have sx : (ignoreLines ((imgRead s ⟨⟨0, 0⟩, []⟩).2.uint maxU 0).1 (((imgRead s ⟨⟨0, 0⟩, []⟩).2.uint maxU 0).2.ignore 10)).rest <:+
          (imgRead s ⟨⟨0, 0⟩, []⟩).2.rest :=
        ((ignoreLines_suffix _ _).trans (ignore_suffix _ _)).trans (uint_suffix _ _ _)
      refine Ends.bind' (f.load d) fun d' => datasLoop_ends small fuel _ d' (sx.trans ((imgRead_suffix _ _).trans hs)) ?_
      have := sx.length_le
      omega

end Ppocr

import Verif.Proofs.Ends6
import Verif.Model.BoxTool

/-! # The tools that show letters come to an end (C121) -/

namespace Ppocr
open Spec

instance (data : List Pixel) (w n p : Nat) : Ends (showRows data w n p) := by
  induction n generalizing p with
  | zero => unfold showRows; finishes
  | succ n ih => unfold showRows; finishes

instance (i : Image) : Ends (imageShow i) := by
  unfold imageShow
  finishes

theorem showStep_ends {i : Image} {x : Nat} (h : Ends (makeBox i x 0 i.bounds)) : Ends (showStep i x) := by
  unfold showStep
  finishes

theorem segmentFrom_box {i : Image} {fuel x : Nat} (h : segmentFrom i (fuel + 1) x ≠ .diverge) :
    Ends (makeBox i x 0 i.bounds) := by
  refine ⟨fun e => h ?_⟩
  unfold segmentFrom
  rw [e]
  rfl

theorem segmentFrom_next {i : Image} {fuel x : Nat} {b : Box} (h : segmentFrom i (fuel + 1) x ≠ .diverge)
    (e1 : makeBox i x 0 i.bounds = .ok b) (ht : b.truthy = true) : segmentFrom i fuel (uadd b.x b.w) ≠ .diverge := by
  intro e
  refine h ?_
  unfold segmentFrom
  rw [e1, Res.ok_bind, if_pos ht, e]
  rfl

theorem showLoop_ends {i : Image} : ∀ (fuel x : Nat) (out : List Nat), segmentFrom i fuel x ≠ .diverge →
    Ends (showLoop i fuel x out).ended
  | 0, _, _, h => absurd rfl h
  | fuel + 1, x, out, h => by
    have hs := showStep_ends (segmentFrom_box h)
    unfold showLoop
    cases hg : showStep i x with
    | ok o =>
      cases o with
      | none => exact inferInstanceAs (Ends (.ok ()))
      | some p =>
        obtain ⟨x', t⟩ := p
        refine showLoop_ends fuel x' (out ++ t) ?_
        unfold showStep at hg
        obtain ⟨b, e1, hg⟩ := Res.bind_eq_ok.1 hg
        split at hg
        · rename_i ht
          obtain ⟨a, _, hg⟩ := Res.bind_eq_ok.1 hg
          obtain ⟨_, _, hg⟩ := Res.bind_eq_ok.1 hg
          cases hg
          exact segmentFrom_next h e1 ht
        · cases hg
    | throw => exact inferInstanceAs (Ends .throw)
    | abort => exact inferInstanceAs (Ends .abort)
    | ub => exact inferInstanceAs (Ends .ub)
    | diverge => exact absurd hg hs.out

theorem boxLoop_ends {i : Image} : ∀ (fuel x : Nat) (out : List Nat), segmentFrom i fuel x ≠ .diverge →
    Ends (boxLoop i fuel x out).ended
  | 0, _, _, h => absurd rfl h
  | fuel + 1, x, out, h => by
    have hs := segmentFrom_box h
    unfold boxLoop
    cases hg : makeBox i x 0 i.bounds with
    | ok b =>
      dsimp only
      split
      · rename_i ht
        have hp : Ends (do let a ← i.section b.x b.y b.bounds; imageShow a) := by finishes
        split
        · exact boxLoop_ends fuel _ _ (segmentFrom_next h hg ht)
        · infer_instance
      · infer_instance
    | throw => exact inferInstanceAs (Ends .throw)
    | abort => exact inferInstanceAs (Ends .abort)
    | ub => exact inferInstanceAs (Ends .ub)
    | diverge => exact absurd hg hs.out

/-- The picture of a file has at most 2^32 pixels with one more row. -/
theorem showFile_ends (lum : Nat) (e : FileEnv)
    (h : ∀ i, loadImage e lum = .ok i → i.bounds.w * i.bounds.h + i.bounds.w ≤ W32) : Ends (showFile lum e).ended := by
  have hr : Ends (loadImage e lum) := by infer_instance
  unfold showFile
  split
  · rename_i i ei
    exact showLoop_ends _ _ _ (segment_ends (loadImage_picture ei) (h _ ei))
  · infer_instance

theorem showGlyphs_ends (lum : Nat) : ∀ es : List FileEnv,
    (∀ e ∈ es, ∀ i, loadImage e lum = .ok i → i.bounds.w * i.bounds.h + i.bounds.w ≤ W32) → Ends (showGlyphs lum es).ended
  | [], _ => inferInstanceAs (Ends (.ok ()))
  | e :: es, h => by
    have h1 := showFile_ends lum e (h e (by simp))
    have h2 := showGlyphs_ends lum es fun k hk => h k (by simp [hk])
    unfold showGlyphs
    dsimp only
    split
    · exact h2
    · exact h1

theorem boxFile_ends (lum : Nat) (n : List Nat) (e : FileEnv)
    (h : ∀ i, loadImage e lum = .ok i → i.bounds.w * i.bounds.h + i.bounds.w ≤ W32) : Ends (boxFile lum n e).ended := by
  have hr : Ends (loadImage e lum) := by infer_instance
  unfold boxFile
  split
  · rename_i i ei
    exact boxLoop_ends _ _ _ (segment_ends (loadImage_picture ei) (h _ ei))
  · infer_instance

theorem boxFiles_ends (D : Disk) (lum : Nat) : ∀ ns : List (List Nat),
    (∀ n ∈ ns, ∀ i, loadImage (D.image n) lum = .ok i → i.bounds.w * i.bounds.h + i.bounds.w ≤ W32) →
      Ends (boxFiles D lum ns).ended
  | [], _ => inferInstanceAs (Ends (.ok ()))
  | n :: ns, h => by
    have h1 := boxFile_ends lum n (D.image n) (h n (by simp))
    have h2 := boxFiles_ends D lum ns fun k hk => h k (by simp [hk])
    unfold boxFiles
    dsimp only
    split
    · exact h2
    · exact h1

theorem ran_ends {w : Written} (h : Ends w.ended) : Ends w.ran.code := by
  unfold Written.ran
  finishes

theorem lumOption_mem {args : List (List Nat)} {lum : Nat} {as : List (List Nat)} (h : lumOption args = .ok (lum, as)) :
    ∀ a ∈ as, a ∈ args := by
  unfold lumOption at h
  intro a ha
  split at h
  · split at h
    · dsimp only at h
      split at h
      · cases h
      · cases h
        simp [ha]
    · cases h
      exact ha
  · cases h
    exact ha

theorem jobsOf_mem {D : Disk} : ∀ {as : List (List Nat)} {j : Job}, j ∈ jobsOf D as → ∃ a ∈ as, j.image = D.image a
  | a :: b :: c :: as, j, h => by
    unfold jobsOf at h
    rcases List.mem_cons.1 h with h | h
    · exact ⟨a, by simp, by rw [h]⟩
    · obtain ⟨x, hx, e⟩ := jobsOf_mem h
      exact ⟨x, by simp [hx], e⟩
  | [], _, h => by simp [jobsOf] at h
  | [_], _, h => by simp [jobsOf] at h
  | [_, _], _, h => by simp [jobsOf] at h

end Ppocr

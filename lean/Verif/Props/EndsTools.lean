import Verif.Proofs.EndsDatas
import Verif.Props.Ends

/-! # The tools come to an end whatever their arguments are (C121) -/

namespace Ppocr.Props
open Ppocr Spec

/-- The pictures named on a command line have less than 2^32 pixels, counting one row more, whatever the threshold. -/
def Named4G (D : Disk) (args : List (List Nat)) : Prop :=
  ∀ a ∈ args, ∀ lum i, loadImage (D.image a) lum = .ok i → i.bounds.w * i.bounds.h + i.bounds.w ≤ W32

/-- **C121** for the command `write_glyphs`. -/
theorem C121_write_glyphs_main (D : Disk) (args : List (List Nat)) (h : Named4G D args) :
    (writeGlyphsMain D args).code ≠ .diverge := by
  refine @Ends.out _ _ ?_
  unfold writeGlyphsMain
  split
  · infer_instance
  · rename_i lum as e
    split
    · infer_instance
    · refine ran_ends (writeGlyphs_ends lum _ fun j hj i hi => ?_)
      obtain ⟨a, ha, ej⟩ := jobsOf_mem hj
      exact h a (lumOption_mem e a ha) lum i (by rw [← ej]; exact hi)

/-- **C121** for the command `show_glyphs`. -/
theorem C121_show_glyphs_main (D : Disk) (args : List (List Nat)) (h : Named4G D args) :
    (showGlyphsMain D args).code ≠ .diverge := by
  refine @Ends.out _ _ ?_
  unfold showGlyphsMain
  split
  · infer_instance
  · rename_i lum as e
    split
    · infer_instance
    · refine ran_ends (showGlyphs_ends lum _ fun j hj i hi => ?_)
      obtain ⟨a, ha, rfl⟩ := List.mem_map.1 hj
      exact h a (lumOption_mem e a ha) lum i hi

/-- **C121** for the command `box`. -/
theorem C121_box_main (D : Disk) (args : List (List Nat)) (h : Named4G D args) : (boxMain D args).code ≠ .diverge := by
  have names : ∀ lum ns, (∀ n ∈ ns, n ∈ args) → Ends (boxNames D lum ns).code := by
    intro lum ns hn
    unfold boxNames
    split
    · infer_instance
    · exact ran_ends (boxFiles_ends D lum ns fun n hx i hi => h n (hn n hx) lum i hi)
  refine @Ends.out _ _ ?_
  unfold boxMain
  split
  · split
    · split
      · infer_instance
      · dsimp only
        split
        · infer_instance
        · exact names _ _ fun n hn => by simp [hn]
    · exact names _ _ fun n hn => hn
  · exact names _ _ fun n hn => hn

/-- Wherever one begins to read two numbers in a text, their product is below 2^32. -/
def Products4G (t : List Nat) : Prop :=
  ∀ s : IS, s.rest <:+ t → (boundsRead s ⟨0, 0⟩).1.w * (boundsRead s ⟨0, 0⟩).1.h < W32

/-- **C121** for `write_datas`: whatever the file of glyphs holds, also empty pictures or pictures too large for the features
to be defined. -/
theorem C121_write_datas (f : TextFile) (h : ∀ t, f = some t → Products4G t) : writeDatas f ≠ .diverge := by
  cases f with
  | none => exact fun e => nomatch e
  | some t =>
    refine @Ends.out _ _ ?_
    unfold writeDatas
    refine Ends.bind' (datasLoop_ends (h t rfl) _ _ _ (List.suffix_refl t) (by simp [IS.of])) fun r => ?_
    finishes

/-- It is enough to look at every place, with every state of the stream. -/
theorem products_check {t : List Nat} (h : ∀ k < t.length + 1, ∀ a b c : Bool,
    (boundsRead ⟨t.drop k, a, b, c⟩ ⟨0, 0⟩).1.w * (boundsRead ⟨t.drop k, a, b, c⟩ ⟨0, 0⟩).1.h < W32) : Products4G t := by
  intro s hs
  obtain ⟨r, a, b, c⟩ := s
  have e : t.drop (t.length - r.length) = r := (List.suffix_iff_eq_drop.1 hs).symm
  have := h (t.length - r.length) (by omega) a b c
  rwa [e] at this

/-- What `write_glyphs` makes of a line. -/
example : writeDatas (some (writeGlyphs 128 [⟨ppm (spread [(0, 2), (1, 1)]), some (bytes "a !"), bytes "font"⟩]).out) ≠ .diverge := by
  refine C121_write_datas _ fun t h => ?_
  cases h
  exact products_check (by decide +kernel)

/-- A picture without cells fails an assert. -/
example : writeDatas (some (bytes "0 3 \n1\na font 0\n")) = .abort ∧ writeDatas (some (bytes "3 0 \n1\na font 0\n")) = .abort := by
  refine ⟨by decide +kernel, by decide +kernel⟩

/-- A single row that ends with a blank column: both tools show the letter, if at all, and fail an assert. -/
example : (showGlyphsMain ⟨fun _ => ppm ⟨⟨3, 1⟩, [45, 120, 45]⟩, fun _ => none⟩ [[97]]).code = .abort ∧
    (boxMain ⟨fun _ => ppm ⟨⟨3, 1⟩, [45, 120, 45]⟩, fun _ => none⟩ [[97]]).code = .abort := by decide +kernel

end Ppocr.Props

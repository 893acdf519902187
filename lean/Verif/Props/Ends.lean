import Verif.Proofs.Ends6
import Verif.Props.AnyDatas
import Verif.Props.Session

/-! # The programs come to an end (C121) -/

namespace Ppocr.Props
open Ppocr Spec

/-! ### The files -/

/-- **C121**: a dictionary file is read to an end, whatever is in it. -/
theorem C121_dictionary (f : Option TextFile) : loadDict f ≠ .diverge := Ends.out

/-- **C121**: an image file is read to an end, whatever is in it and however the reads are cut. -/
theorem C121_image (e : FileEnv) (lum : Nat) : loadImage e lum ≠ .diverge := Ends.out

/-- **C121**: a file of glyphs below 4 GiB is read to an end. -/
theorem C121_glyphs (f : TextFile) (h : Under4G f) : loadGlyphs f ≠ .diverge := @Ends.out _ _ (loadGlyphs_ends h)

/-- **C121**: the search in the dictionary comes to an end for any nodes, though they refer to each other in a circle, and any
candidates, though they are not UTF-8. -/
theorem C121_search (E : List FNode) (table : List (List (List Nat))) (out : List Nat) : disambiguous E table out ≠ .diverge :=
  Ends.out

/-- **C121**: the text is put together in finitely many steps for any candidates and any positions of spaces. -/
theorem C121_text (g : RGlyphs) (E : List FNode) (amb : List (List View)) (spaces : List Nat) :
    disambiguousWithDict g E amb spaces ≠ .diverge := Ends.out

/-! ### The program -/

section
variable (P : Type) [Dbl P]

/-- **C121**: whatever the five files hold, and whatever the arithmetic of `double` does, `ocr2_extract_text` comes to an end: it
gives an answer, throws, fails an assert, or does something undefined. The glyphs are in a file below 4 GiB, and the picture,
if there is one, has less than 2^31 pixels. -/
theorem C121_ends (S : StdSort) (f : ProgFiles) (hg : Under4G f.glyphs)
    (hi : ∀ i, loadImage f.image 128 = .ok i → 2 * (i.bounds.w * i.bounds.h) < W32) : program P S f ≠ .diverge := by
  refine @Ends.out _ _ ?_
  unfold program
  refine Ends.bind' (by infer_instance) fun E => Ends.bind' (by infer_instance) fun d =>
    Ends.bind_ok (loadGlyphs_ends hg) fun g eg => ?_
  split
  · infer_instance
  · have ht : ∃ t, f.glyphs = some t := by
      cases hf : f.glyphs with
      | none =>
        rw [hf] at eg
        cases eg
      | some t => exact ⟨t, rfl⟩
    obtain ⟨t, ht⟩ := ht
    rw [ht] at eg
    obtain ⟨us, hl⟩ := loadGlyphs_loaded (hg t ht) eg
    refine Ends.bind' (loadInfos_ends S (hg t ht) hl _) fun infos => Ends.bind' (by infer_instance) fun bw =>
      Ends.bind_ok (by infer_instance) fun i ei => ?_
    have h := hi i ei
    obtain ⟨wf, hw, hh, _⟩ := loadImage_picture ei
    have hwh : i.bounds.w * 1 ≤ i.bounds.w * i.bounds.h := Nat.mul_le_mul_left _ (by omega)
    unfold extractText
    refine Ends.bind' ?_ fun l => ?_
    · refine lineLoop_ends wf hh (by omega) (fun a ha => ?_) (i.bounds.w + 1) 0 (Line.init P) noImage [] hw (by omega) inv_init
      obtain ⟨_, h1, h2, h3⟩ := ha.cells wf
      exact ⟨by omega, setupOf_stops S g.views d bw h2 h3⟩
    · finishes

end

/-- **C121** for `extract_text6`: here the file of glyphs may have any size, and the picture less than 2^32 pixels and columns. -/
theorem C121_ends6 (S : StdSort) (f : ProgFiles)
    (hi : ∀ i, loadImage f.image 128 = .ok i → i.bounds.w * i.bounds.h + i.bounds.w ≤ W32) : program6 S f ≠ .diverge := by
  refine @Ends.out _ _ ?_
  unfold program6
  refine Ends.bind' (by infer_instance) fun E => Ends.bind' (by infer_instance) fun d => Ends.bind' (by infer_instance) fun gs => ?_
  split
  · infer_instance
  · refine Ends.bind' (by infer_instance) fun ws => Ends.bind' (by infer_instance) fun p => Ends.bind' (by infer_instance) fun t =>
      Ends.bind_ok (by infer_instance) fun i ei => ?_
    obtain ⟨wf, hw, hh, _⟩ := loadImage_picture ei
    unfold extract6
    refine Ends.bind' (lineLoop6_ends wf hh (hi i ei) (fun a ha => ?_) _ 0 _ hw (by omega)) fun l => by finishes
    obtain ⟨_, _, h1, h2⟩ := ha.cells wf
    exact computeLetter6_ends S t h1 h2

/-- **C121** for `extract_text8`, whatever its arithmetic does and whatever is left in a string that was moved from. Its loop over
the rows, in which an `unsigned` is compared with a `size_t`, ends since `main` fails an assert when there are more rows. -/
theorem C121_ends8 (P : Type) [Prob8 P] (S : StdSort) (mv : List Nat → List Nat) (f : ProgFiles)
    (hi : ∀ i, loadImage f.image 128 = .ok i → i.bounds.w * i.bounds.h + i.bounds.w ≤ W32) : program8 P S mv f ≠ .diverge := by
  refine @Ends.out _ _ ?_
  unfold program8
  refine Ends.bind_ok (by infer_instance) fun r hr => ?_
  obtain ⟨E, d, p, bw⟩ := r
  refine Ends.bind_ok (by infer_instance) fun t ht => Ends.bind_ok (by infer_instance) fun i ei => ?_
  have hs := tables8_size hr ht
  obtain ⟨wf, hw, hh, _⟩ := loadImage_picture ei
  unfold extract6
  refine Ends.bind' (lineLoop6_ends wf hh (hi i ei) (fun a ha => ?_) _ 0 _ hw (by omega)) fun l => by finishes
  obtain ⟨_, _, h1, h2⟩ := ha.cells wf
  exact computeLetter8_ends S t hs h1 h2

/-! ### The tools -/

/-- **C121** for `write_glyphs`: whatever the texts and the pictures hold, if a picture has less than 2^32 pixels and columns. -/
theorem C121_write_glyphs (lum : Nat) (js : List Job)
    (h : ∀ j ∈ js, ∀ i, loadImage j.image lum = .ok i → i.bounds.w * i.bounds.h + i.bounds.w ≤ W32) :
    (writeGlyphs lum js).ended ≠ .diverge := @Ends.out _ _ (writeGlyphs_ends lum js h)

/-- **C121** for `make_trie_dictionary`, whatever the files hold. -/
theorem C121_make_trie (S : StdSort) (args : List (Option (List Nat))) : makeTrie S args ≠ .diverge := Ends.out

/-! ### Files that no tool makes -/

/-- A dictionary in which the second node is its own child. -/
def circle : List Nat := bytes "97 1 1 0\n97 0 1 0\n"

/-- It is taken, and `aaaa` goes round in it without being found. -/
example : loadDict (some (some circle)) = .ok [⟨97, 1, 1, false⟩, ⟨97, 0, 1, false⟩] ∧
    disambiguous [⟨97, 1, 1, false⟩, ⟨97, 0, 1, false⟩] (List.replicate 4 [mem ([97], [])]) [] = .ok (false, []) := by
  refine ⟨by decide +kernel, by decide +kernel⟩

/-- Candidates that end within a letter: the search leaves the string. -/
example : disambiguous [⟨97, 1, 0, true⟩] [[[0xE2, 0x80]]] [] = .ub := by decide +kernel

/-- The block and the T read with that dictionary, with features cut off, and with what is no list of words. -/
def hostile (t : List Nat) : ProgFiles :=
  let g := writeGlyphs 128 [⟨ppm (spread [(0, 2), (1, 1)]), some (bytes "a !"), bytes "font"⟩]
  ⟨some g.out, some (bytes "2\n100 50 \n100 50 \n0 0"), ppm blockT, some (some t), some (some circle)⟩

example : program Frac insertionSort (hostile (bytes "!! 3")) ≠ .diverge := by
  refine C121_ends Frac insertionSort _ ?_ ?_
  · intro t h
    cases h
    decide +kernel
  · intro i h
    have e : loadImage (ppm blockT) 128 = .ok blockT := by decide +kernel
    have h : loadImage (ppm blockT) 128 = .ok i := h
    rw [e] at h
    cases h
    decide

/-- A line that is no `LineImage`: the last column of its only row is blank, and the search for a letter there fails an assert. -/
example : program Frac insertionSort { hostile (bytes "!! 3") with image := ppm ⟨⟨2, 1⟩, [45, 45]⟩ } = .abort := by decide +kernel

/-- Without the list of words the cut features let the program leave a table. -/
example : program Frac insertionSort { hostile [] with infos := none } = .ub := by decide +kernel

/-- A single row that ends with a blank column: an assert fails, and nothing is written. -/
example : (writeGlyphs 128 [⟨ppm ⟨⟨3, 1⟩, [45, 120, 45]⟩, some (bytes "a"), bytes "font"⟩]).ended = .abort := by decide +kernel

/-- A list of words with an empty line: its first character is read behind its end. -/
example : makeTrie insertionSort [some (bytes "ab\n\n")] = .ub ∧ makeTrie insertionSort [some (bytes "ab\n")] ≠ .ub := by
  refine ⟨by decide +kernel, by decide +kernel⟩

end Ppocr.Props

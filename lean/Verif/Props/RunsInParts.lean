import Verif.Props.CommandArgs
import Verif.Props.BoxTool
import Verif.Proofs.RunsInParts

/-! # C126: the tools on many pictures and on one after the other -/

namespace Ppocr.Props
open Ppocr Spec

/-- **C126** for `write_glyphs`: pictures given together, and given to two runs one after the other, with or without the option. -/
theorem C126_write_glyphs (D : Disk) (r q : Run) (rs qs : List Run) :
    (∀ v, writeGlyphsMain D (bytes "-l" :: v :: ((r :: rs) ++ (q :: qs)).flatMap Run.names) =
        inTurn (writeGlyphsMain D (bytes "-l" :: v :: (r :: rs).flatMap Run.names))
          (writeGlyphsMain D (bytes "-l" :: v :: (q :: qs).flatMap Run.names))) ∧
    (r.picture ≠ bytes "-l" → q.picture ≠ bytes "-l" →
      writeGlyphsMain D (((r :: rs) ++ (q :: qs)).flatMap Run.names) =
        inTurn (writeGlyphsMain D ((r :: rs).flatMap Run.names)) (writeGlyphsMain D ((q :: qs).flatMap Run.names))) := by
  constructor
  · intro v
    by_cases hv : ∃ k, Amount v k
    · obtain ⟨k, hk⟩ := hv
      have h : ∀ (r : Run) rs, writeGlyphsMain D (bytes "-l" :: v :: (r :: rs).flatMap Run.names) =
          (writeGlyphs (k % 2 ^ 32).toNat ((r :: rs).map (Run.job D))).ran := by
        intro r rs
        have hl := names_length (r :: rs)
        have := (C74_exact D v r.picture ([r.text, r.font] ++ rs.flatMap Run.names) k hk).2
        rw [show r.picture :: ([r.text, r.font] ++ rs.flatMap Run.names) = (r :: rs).flatMap Run.names from rfl,
          jobsOf_names] at this
        exact this (by omega)
      rw [h r rs, h q qs, ← writeGlyphs_append, ← List.map_append]
      exact h r (rs ++ q :: qs)
    · have h : ∀ (r : Run) rs, writeGlyphsMain D (bytes "-l" :: v :: (r :: rs).flatMap Run.names) = ⟨[], .ok 2⟩ :=
        fun r rs => (C74_refused D v r.picture ([r.text, r.font] ++ rs.flatMap Run.names) hv).2
      rw [h r rs, h q qs]
      exact h r (rs ++ q :: qs)
  · intro hr hq
    rw [(C74_triples D r rs).2 hr, (C74_triples D q qs).2 hq, ← writeGlyphs_append, ← List.map_append]
    exact (C74_triples D r (rs ++ q :: qs)).2 hr

/-- The text `u` has a word too few: the third line is not learnt from, and of the second only one glyph is written. -/
example : ([⟨[112], [116], bytes "one"⟩, ⟨[112], [117], bytes "two"⟩, ⟨[112], [116], bytes "three"⟩] : List Run).flatMap Run.names =
      [[112], [116], bytes "one", [112], [117], bytes "two", [112], [116], bytes "three"] ∧
    writeGlyphsMain deskDisk
        (([⟨[112], [116], bytes "one"⟩, ⟨[112], [117], bytes "two"⟩, ⟨[112], [116], bytes "three"⟩] : List Run).flatMap Run.names) =
      ⟨bytes ("2 2 xxxx\n1\na one 4294967295\n1 2 xx\n1\n! one 4294967295\n2 2 xxxx\n1\na one 4294967295\n" ++
        "2 2 xxxx\n1\na two 4294967295\n"), .throw⟩ := by
  refine ⟨rfl, ?_⟩
  rw [(C74_triples deskDisk _ _).2 (by decide +kernel)]
  decide +kernel

/-- The function `learning` of the script returns behind the first command that fails. -/
theorem learnRuns_cons (D : Disk) (r : Run) (rs : List Run) :
    learnRuns D (r :: rs) = inTurn (writeGlyphsMain D r.args) (learnRuns D rs) := by
  rw [learnRuns]
  unfold inTurn
  dsimp only
  split
  · rename_i h
    rw [if_pos h]
  · rename_i h
    rw [if_neg h]

theorem run_args (r : Run) : r.args = bytes "-l" :: bytes "100" :: [r].flatMap Run.names := by
  rw [dash_l, show bytes "100" = [49, 48, 48] by decide +kernel]
  rfl

/-- **C126** for the script `learning`: its loops, which run `write_glyphs` once for each picture, give out what one run on all of
them gives out, and fail when and as it does. (What stays in the buffer of `std::cout` after a failure is not modelled.) -/
theorem C126_learning (D : Disk) : ∀ (r : Run) (rs : List Run),
    learnRuns D (r :: rs) = writeGlyphsMain D (bytes "-l" :: bytes "100" :: (r :: rs).flatMap Run.names)
  | r, [] => by
    rw [learnRuns_cons]
    rw [run_args]
    unfold inTurn
    split
    · rename_i h
      show Ran.mk (_ ++ []) (.ok 0) = _
      rw [List.append_nil, ← h]
    · rfl
  | r, q :: qs => by
    rw [learnRuns_cons, C126_learning D q qs, run_args]
    exact ((C126_write_glyphs D r q [] qs).1 (bytes "100")).symm

/-- **C126** for `box`. -/
theorem C126_box (D : Disk) (a b : List Nat) (as bs : List (List Nat)) (ha : a ≠ bytes "-l") (hb : b ≠ bytes "-l") :
    boxMain D ((a :: as) ++ (b :: bs)) = inTurn (boxMain D (a :: as)) (boxMain D (b :: bs)) := by
  rw [dash_l] at ha hb
  rw [List.cons_append, boxMain_plain D ha, boxMain_plain D ha, boxMain_plain D hb]
  unfold boxNames
  rw [if_neg (by simp), if_neg (by simp), if_neg (by simp)]
  exact boxFiles_append D 128 (b :: bs) (a :: as)

/-- **C126** for `box` with the option, which gives out a line that says so in each run. -/
theorem C126_box_option (D : Disk) (v a b : List Nat) (as bs : List (List Nat)) :
    ∃ t o, (boxMain D (bytes "-l" :: v :: b :: bs)).out = bytes " ## luminance: " ++ showNat t ++ [10] ++ o ∧
      boxMain D (bytes "-l" :: v :: ((a :: as) ++ (b :: bs))) = inTurn (boxMain D (bytes "-l" :: v :: a :: as))
        ⟨o, (boxMain D (bytes "-l" :: v :: b :: bs)).code⟩ := by
  rw [dash_l]
  simp only [boxMain_option]
  refine ⟨(strtoul v).value % W32, ?_⟩
  split
  · exact ⟨[], by simp, rfl⟩
  · refine ⟨_, rfl, ?_⟩
    unfold boxNames
    rw [if_neg (by simp), if_neg (by simp), if_neg (by simp), boxFiles_append]
    dsimp only
    unfold inTurn
    split <;> simp

/-- **C126** for `show_glyphs`. -/
theorem C126_show_glyphs (D : Disk) (a b : List Nat) (as bs : List (List Nat)) :
    (∀ v, showGlyphsMain D (bytes "-l" :: v :: ((a :: as) ++ (b :: bs))) =
        inTurn (showGlyphsMain D (bytes "-l" :: v :: a :: as)) (showGlyphsMain D (bytes "-l" :: v :: b :: bs))) ∧
    (a ≠ bytes "-l" → b ≠ bytes "-l" →
      showGlyphsMain D ((a :: as) ++ (b :: bs)) = inTurn (showGlyphsMain D (a :: as)) (showGlyphsMain D (b :: bs))) := by
  constructor
  · intro v
    by_cases hv : ∃ k, Amount v k
    · obtain ⟨k, hk⟩ := hv
      rw [(C74_exact D v a as k hk).1, (C74_exact D v b bs k hk).1, ← showGlyphs_append, ← List.map_append]
      exact (C74_exact D v a (as ++ b :: bs) k hk).1
    · rw [(C74_refused D v a as hv).1, (C74_refused D v b bs hv).1]
      exact (C74_refused D v a (as ++ b :: bs) hv).1
  · intro ha hb
    have h := fun n ns (hn : n ≠ bytes "-l") => (C74_no_option D (n :: ns) (.inl (by simpa using hn))).1
    rw [h a as ha, h b bs hb, if_neg (by simp), if_neg (by simp), ← showGlyphs_append, ← List.map_append]
    rw [List.cons_append, h a (as ++ b :: bs) ha, if_neg (by simp)]

/-- A picture that cannot be segmented (one row with a blank end, C13), and others. -/
def mixedDisk : Disk := ⟨fun n => if n = [113] then ppm ⟨⟨3, 1⟩, [45, 120, 45]⟩ else ppm blockGap, fun _ => none⟩

/-- The third picture is not shown, as it would not be by a second run behind `&&`. -/
example : showGlyphsMain mixedDisk [[112], [113], [112]] =
    inTurn (showGlyphsMain mixedDisk [[112]]) (showGlyphsMain mixedDisk [[113], [112]]) ∧
    (showGlyphsMain mixedDisk [[112], [113], [112]]).code = .abort ∧
    (showGlyphsMain mixedDisk [[112], [113], [112]]).out =
      (showGlyphsMain mixedDisk [[112]]).out ++ (showGlyphsMain mixedDisk [[113]]).out ∧
    (showGlyphsMain mixedDisk [[112], [112]]).out =
      bytes "::::\n:xx:\n:xx:\n::::\n\n:::\n:x:\n:x:\n:::\n\n::::\n:xx:\n:xx:\n::::\n\n" ++ (showGlyphsMain mixedDisk [[112]]).out ∧
    boxMain mixedDisk [[112], [113], [112]] = boxMain mixedDisk [[112], [113]] ∧
    (boxMain mixedDisk [[112]]).code = .ok 0 := by
  decide +kernel

end Ppocr.Props

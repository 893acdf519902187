import Verif.Proofs.Tools
import Verif.Props.Glyphs
import Verif.Props.DatasIO
import Verif.Props.Program

/-! # The learning tools, and learning followed by reading (C65, C66, C67) -/

namespace Ppocr.Props
open Ppocr Spec

/-! ### C65 -/

/-- The boxes of a line are inside the image, and so are its pictures. -/
theorem line_pics {lum : Nat} {l : Lesson} (h : l.Holds lum) : Picture l.image ∧ l.pics.length = l.boxes.length ∧
    ∀ a ∈ l.pics, a.WF ∧ (∀ p ∈ a.data, p = chDash ∨ p = chX) ∧ ∃ b ∈ l.boxes, a.bounds = b.bounds ∧ 0 < b.w ∧ 0 < b.h := by
  have hpic := loadImage_picture h.load
  rcases segmentFrom_ok hpic.wf hpic.h h.size (l.image.bounds.w + 1) 0 hpic.w (by omega) (by omega) with
    ⟨bs, h1, _, _, h4, _⟩ | ⟨h1, _⟩
  · have hb : bs = l.boxes := by
      have := h.seg
      unfold segment at this
      rw [h1] at this
      cases this; rfl
    subst hb
    have hin : ∀ b ∈ l.boxes, 0 < b.w ∧ 0 < b.h ∧ b.x + b.w ≤ l.image.bounds.w ∧ b.y + b.h ≤ l.image.bounds.h := by
      intro b hb
      obtain ⟨_, ⟨x0, c⟩, _⟩ := h4 b hb
      exact ⟨c.wpos, c.hpos, c.right, c.bottom⟩
    obtain ⟨as, hp, hl⟩ := pictures_exist hpic.wf l.boxes hin
    have := pictures_unique h.pics hp
    subst this
    refine ⟨hpic, hl, fun a ha => ?_⟩
    obtain ⟨b, hb, e⟩ := pictures_box hp ha
    obtain ⟨c1, c2, c3, c4⟩ := hin b hb
    obtain ⟨a', e1, wa, hab, _⟩ := C55_section l.image hpic.wf b.x b.y b.bounds c1 c2 (show b.w + b.x ≤ _ by omega)
      (show b.h + b.y ≤ _ by omega)
    rw [e] at e1
    cases e1
    exact ⟨wa, fun p hp => hpic.pixels p (section_mem e p hp), b, hb, hab, c1, c2⟩
  · have := h.seg
    unfold segment at this
    rw [h1] at this
    cases this

/-- **C65**, one line: the glyphs written are, from left to right, the pictures of the letters, the n-th with the n-th word
of the text, the font of the command line and the greatest `unsigned`. If there are as many words as letters the tool goes
on, else it ends with an exception, after the letters that have a word. -/
theorem C65_line (lum : Nat) (l : Lesson) (h : l.Holds lum) :
    ∃ t, glyphsWrite l.glyphs = .ok t ∧
      loadFile lum l.job = ⟨t, if l.words.length = l.boxes.length then .ok () else .throw⟩ := by
  obtain ⟨hpic, _, hwf⟩ := line_pics h
  obtain ⟨t, ht, hw⟩ := h.text
  obtain ⟨r, hr, e⟩ := glyphsOfLoop_ok l.job.font (l.image.bounds.w + 1) 0 (IS.of t) l.boxes l.pics l.words [] h.seg h.pics
    (fun a ha => (hwf a ha).1) ⟨rfl, rfl, by simp [IS.of]⟩ hw
  refine ⟨r, hr, ?_⟩
  unfold loadFile openText
  rw [ht, h.load]
  simp only [Res.ok_bind, Res.pure_eq]
  rw [e]
  simp [eq_comm]

/-- Every pair of readable files is a line to learn: the image has letters (C13), and the text has words. -/
theorem C65_every_line (lum : Nat) (j : Job) (t : List Nat) (i : Image) (ht : j.text = some t)
    (hi : loadImage j.image lum = .ok i) (hsz : i.bounds.w * i.bounds.h + i.bounds.w ≤ 2 ^ 32)
    (hrow : 1 < i.bounds.h ∨ ¬ BlankCol i (i.bounds.w - 1)) :
    ∃ l : Lesson, l.Holds lum ∧ l.job = j := by
  have hpic := loadImage_picture hi
  obtain ⟨ws, hw⟩ := textWords_exists t.length t (Nat.le_refl _)
  obtain ⟨bs, e, _, hb, _⟩ := C13_segmentation_partial i hpic.wf hpic.w hpic.h hsz hrow
  obtain ⟨as, hp, hl⟩ := pictures_exist hpic.wf bs (by
    intro b hm
    obtain ⟨⟨x0, c⟩, _⟩ := hb b hm
    exact ⟨c.wpos, c.hpos, c.right, c.bottom⟩)
  exact ⟨⟨j, i, bs, as, ws⟩, ⟨⟨t, ht, hw⟩, hi, hsz, e, hp⟩, rfl⟩

/-- A file that cannot be opened, and an image that cannot be loaded, stop the tool with an exception. -/
theorem C65_unreadable (lum : Nat) (j : Job) :
    (j.text = none → loadFile lum j = ⟨[], .throw⟩) ∧
    (∀ t, j.text = some t → imageFromFile j.image lum = .throw → loadFile lum j = ⟨[], .throw⟩) := by
  constructor
  · intro h
    unfold loadFile openText
    rw [h]
    rfl
  · intro t h h1
    unfold loadFile openText loadImage
    rw [h, h1]
    rfl

theorem glyphsWrite_append : ∀ {gs hs : List LGlyph} {t r : List Nat}, glyphsWrite gs = .ok t → glyphsWrite hs = .ok r →
    glyphsWrite (gs ++ hs) = .ok (t ++ r)
  | [], hs, t, r, h1, h2 => by cases h1; exact h2
  | g :: gs, hs, t, r, h1, h2 => by
    unfold glyphsWrite at h1
    obtain ⟨t1, e1, h1⟩ := Res.bind_eq_ok.1 h1
    obtain ⟨t2, e2, h1⟩ := Res.bind_eq_ok.1 h1
    simp only [Res.pure_eq, Res.ok.injEq] at h1
    subst h1
    rw [List.append_assoc]
    exact glyphsWrite_cons e1 (glyphsWrite_append e2 h2)

/-- **C65**, several lines with as many words as letters: their glyphs follow each other. Then, if there is one, the
first line for which the counts differ: the tool ends with an exception. -/
theorem C65_lines (lum : Nat) (ls : List Lesson) (h : ∀ l ∈ ls, l.Holds lum ∧ l.words.length = l.boxes.length) :
    ∃ t, glyphsWrite (ls.flatMap Lesson.glyphs) = .ok t ∧ writeGlyphs lum (ls.map Lesson.job) = ⟨t, .ok ()⟩ ∧
      ∀ (l : Lesson) (js : List Job), l.Holds lum → l.words.length ≠ l.boxes.length →
        ∃ r, glyphsWrite (ls.flatMap Lesson.glyphs ++ l.glyphs) = .ok r ∧
          writeGlyphs lum (ls.map Lesson.job ++ l.job :: js) = ⟨r, .throw⟩ := by
  induction ls with
  | nil =>
    refine ⟨[], rfl, rfl, fun l js hl hne => ?_⟩
    obtain ⟨r, hr, e⟩ := C65_line lum l hl
    refine ⟨r, hr, ?_⟩
    simp only [List.map_nil, List.nil_append, writeGlyphs]
    rw [e, if_neg hne]
  | cons m ls ih =>
    obtain ⟨t, ht, e, h1⟩ := ih fun l hl => h l (by simp [hl])
    obtain ⟨hm, hc⟩ := h m (by simp)
    obtain ⟨t0, ht0, e0⟩ := C65_line lum m hm
    rw [if_pos hc] at e0
    refine ⟨t0 ++ t, glyphsWrite_append ht0 ht, ?_, fun l js hl hne => ?_⟩
    · simp only [List.map_cons, writeGlyphs]
      rw [e0, e]
    · obtain ⟨r, hr, e2⟩ := h1 l js hl hne
      refine ⟨t0 ++ r, ?_, ?_⟩
      · rw [List.flatMap_cons, List.append_assoc]
        exact glyphsWrite_append ht0 hr
      · simp only [List.map_cons, List.cons_append, writeGlyphs]
        rw [e0, e2]

/-- The words of a text can be written. -/
theorem textWords_token {t : List Nat} {ws : List (List Nat)} (h : TextWords t ws) : ∀ w ∈ ws, Token w := by
  induction h with
  | stop => simp
  | more t w r ws hw _ ih =>
    intro u hu
    rcases List.mem_cons.1 hu with rfl | hu
    · obtain ⟨p, _, _, hne, hb, _⟩ := hw
      refine ⟨hne, fun c hc => ?_⟩
      rw [Bool.eq_false_iff]
      exact fun hs => hb c hc (isBlank_iff.1 hs)
    · exact ih u hu

theorem lineGlyphs_mem {font : List Nat} : ∀ {as : List Image} {ws : List (List Nat)} {g : LGlyph},
    g ∈ lineGlyphs font as ws → ∃ a ∈ as, ∃ w ∈ ws, g = ⟨a, [⟨w, font, 2 ^ 32 - 1⟩]⟩
  | [], _, g, h => by simp [lineGlyphs] at h
  | _ :: _, [], g, h => by simp [lineGlyphs] at h
  | a :: as, w :: ws, g, h => by
    unfold lineGlyphs at h
    rw [List.zipWith_cons_cons] at h
    rcases List.mem_cons.1 h with rfl | h
    · exact ⟨a, by simp, w, by simp, rfl⟩
    · obtain ⟨a', h1, w', h2, e⟩ := lineGlyphs_mem (as := as) (ws := ws) h
      exact ⟨a', by simp [h1], w', by simp [h2], e⟩

theorem line_readable {lum : Nat} {l : Lesson} (h : l.Holds lum) (hf : Token l.job.font) : ∀ g ∈ l.glyphs, g.Readable := by
  intro g hg
  obtain ⟨_, _, hwf⟩ := line_pics h
  obtain ⟨t, _, hw⟩ := h.text
  obtain ⟨a, ha, w, hm, rfl⟩ := lineGlyphs_mem hg
  obtain ⟨h1, h2, _⟩ := hwf a ha
  refine ⟨⟨h1, ?_, show 1 ≤ maxU by decide⟩, by simp, ?_⟩
  · intro v hv
    rw [List.mem_singleton] at hv
    subst hv
    exact ⟨textWords_token hw w hm, hf, show 2 ^ 32 - 1 ≤ maxU by decide⟩
  · intro p hp e
    subst e
    rcases h2 10 hp with h | h <;> exact absurd h (by decide)

/-- **C65**, read back (C46): the glyphs that the learning tools find in what was written are those of the lines. -/
theorem C65_read_back (lum : Nat) (ls : List Lesson)
    (h : ∀ l ∈ ls, l.Holds lum ∧ l.words.length = l.boxes.length) (hf : ∀ l ∈ ls, Token l.job.font) :
    ∃ t, writeGlyphs lum (ls.map Lesson.job) = ⟨t, .ok ()⟩ ∧
      glyphsRead (IS.of t) [] = .ok (ls.flatMap Lesson.glyphs, ⟨[], true, true, true⟩) := by
  obtain ⟨t, ht, e, _⟩ := C65_lines lum ls h
  have hg : ∀ g ∈ ls.flatMap Lesson.glyphs, g.Good := by
    intro g hg
    obtain ⟨l, hl, hg⟩ := List.mem_flatMap.1 hg
    exact (line_readable (h l hl).1 (hf l hl) g hg).toGood
  obtain ⟨t', ht', e'⟩ := C46_round_trip _ [] hg
  rw [ht] at ht'
  cases ht'
  exact ⟨t, e, e'⟩

/-- A file with the image, letters white on black. -/
def ppm (i : Image) : FileEnv :=
  let c := (bytes "P6\n").map UInt8.ofNat ++ (showNat i.bounds.w ++ 32 :: showNat i.bounds.h).map UInt8.ofNat ++
    (bytes "\n255\n").map UInt8.ofNat ++ i.data.flatMap fun p => if p = chX then [255, 255, 255] else [0, 0, 0]
  ⟨true, true, c.length, c, []⟩

/-- The block, the bar, a gap and the block, with the words `a`, `!`, `a`. -/
def lesson : Lesson :=
  ⟨⟨ppm blockGap, some (bytes " a ! \na\n"), bytes "font"⟩, blockGap, [⟨0, 0, 2, 2⟩, ⟨3, 0, 1, 2⟩, ⟨9, 0, 2, 2⟩],
    [block, bar, block], [[97], [33], [97]]⟩

theorem lesson_words : TextWords (bytes " a ! \na\n") [[97], [33], [97]] := by
  have e : bytes " a ! \na\n" = [32, 97, 32, 33, 32, 10, 97, 10] := by decide +kernel
  rw [e]
  refine .more _ _ [32, 33, 32, 10, 97, 10] _ ⟨[32], rfl, ?_, by simp, ?_, ?_⟩
    (.more _ _ [32, 10, 97, 10] _ ⟨[32], rfl, ?_, by simp, ?_, ?_⟩
      (.more _ _ [10] _ ⟨[32, 10], rfl, ?_, by simp, ?_, ?_⟩ (.stop _ ?_)))
  all_goals simp [Blank]

theorem lesson_holds : lesson.Holds 128 :=
  ⟨⟨_, rfl, lesson_words⟩, by decide +kernel, by decide, by decide +kernel, ⟨by decide, by decide, by decide, trivial⟩⟩

/-- What is written for it; and with a word too few, or too many. -/
example : loadFile 128 lesson.job =
      ⟨bytes "2 2 xxxx\n1\na font 4294967295\n1 2 xx\n1\n! font 4294967295\n2 2 xxxx\n1\na font 4294967295\n", .ok ()⟩ ∧
    loadFile 128 ⟨ppm blockGap, some (bytes "a"), bytes "font"⟩ = ⟨bytes "2 2 xxxx\n1\na font 4294967295\n", .throw⟩ ∧
    (loadFile 128 ⟨ppm blockGap, some (bytes "a ! a a"), bytes "font"⟩).ended = .throw := by decide +kernel

/-! ### C66 -/

/-- **C66**: from a glyph file of pictures of a reasonable size, `write_datas` prints the features of the pictures, in their
order; the recogniser loads them. -/
theorem C66_features (gs : List LGlyph) (h : ∀ g ∈ gs, g.Good) (hs : ∀ g ∈ gs, Sized g.img) (hn : gs.length < 2 ^ 64) :
    ∃ t d, glyphsWrite gs = .ok t ∧ Learnt (gs.map LGlyph.img) d ∧ writeDatas (some t) = .ok (0, datasWrite d) ∧
      datasFromFile (datasWrite d) = .ok ⟨d.tables, Ctxs.fresh⟩ := by
  obtain ⟨t, ht, hl⟩ := glyphsWrite_total h
  have hs' : ∀ i ∈ gs.map LGlyph.img, Sized i := by
    intro i hi
    obtain ⟨g, hg, rfl⟩ := List.mem_map.1 hi
    exact hs g hg
  obtain ⟨d, ed, hL⟩ := learnt_loadAll _ hs'
  obtain ⟨d', ed', hr⟩ := C52_loaded _ hs' (by simpa using hn)
  rw [ed] at ed'
  cases ed'
  refine ⟨t, d, ht, hL, ?_, hr⟩
  unfold writeDatas IS.of
  simp only []
  rw [datasLoop_write gs t (t.length + 1) Datas.empty d h ht (by omega) ed]
  rfl

/-- The features of the line of `lesson`. -/
example : ∃ t d, glyphsWrite lesson.glyphs = .ok t ∧ Learnt [block, bar, block] d ∧ writeDatas (some t) = .ok (0, datasWrite d) := by
  obtain ⟨t, d, ht, hd, e, _⟩ := C66_features lesson.glyphs
    (fun g hg => (line_readable lesson_holds ⟨by decide +kernel, by decide +kernel⟩ g hg).1)
    (by
      intro g hg
      obtain ⟨a, ha, _, _, rfl⟩ := lineGlyphs_mem hg
      have : a ∈ [block, bar] := by
        simp only [lesson, List.mem_cons, List.not_mem_nil, or_false] at ha
        simp only [List.mem_cons, List.not_mem_nil, or_false]
        rcases ha with h | h | h <;> simp [h]
      exact twoLetters a this) (by decide)
  exact ⟨t, d, ht, hd, e⟩

/-- On a picture without pixels an `assert` fails. -/
theorem C66_no_pixels : writeDatas (some (bytes "0 0 \n1\na b 0\n")) = .abort := by decide +kernel

/-- A file that cannot be opened gives the exit code 2, one with something else behind the glyphs the code 5. -/
theorem C66_codes : writeDatas none = .ok (2, []) ∧
    writeDatas (some (bytes "1 1 x\n1\na b 0\nrest")) = .ok (5, bytes "[rest]\n") := by
  constructor
  · rfl
  · decide +kernel

end Ppocr.Props

import Verif.Props.Alike

/-! # Lines that `show_glyphs` shows alike teach the same (C101) -/

namespace Ppocr.Props
open Ppocr Spec

/-! ### Helper lemmas -/

/-- What was shown to the end was divided into letters, and the pictures of the letters were cut out. -/
theorem showLoop_done {i : Image} : ∀ (fuel x : Nat) (out : List Nat), (showLoop i fuel x out).ended = .ok () →
    ∃ bs as, segmentFrom i fuel x = .ok bs ∧ Pictures i bs as
  | 0, _, _, h => by cases h
  | fuel + 1, x, out, h => by
    unfold showLoop showStep at h
    unfold segmentFrom
    cases eb : makeBox i x 0 i.bounds with
    | ok b =>
      rw [eb, Res.ok_bind] at h
      rw [Res.ok_bind]
      by_cases t : b.truthy = true
      · rw [if_pos t] at h ⊢
        cases es : i.section b.x b.y b.bounds with
        | ok a =>
          rw [es, Res.ok_bind] at h
          cases et : imageShow a with
          | ok s =>
            rw [et] at h
            obtain ⟨bs, as, e1, e2⟩ := showLoop_done fuel _ _ h
            rw [e1]
            exact ⟨b :: bs, a :: as, rfl, es, e2⟩
          | _ => rw [et] at h; cases h
        | _ => rw [es] at h; cases h
      · rw [if_neg t]
        exact ⟨[], [], rfl, trivial⟩
    | _ => rw [eb] at h; cases h

/-- The file holds a picture of reasonable size. -/
def SmallPicture (lum : Nat) (e : FileEnv) : Prop :=
  ∀ i, loadImage e lum = .ok i → i.bounds.w * i.bounds.h + i.bounds.w ≤ 2 ^ 32

theorem shown_of {lum : Nat} {e : FileEnv} (hs : SmallPicture lum e) (h : (showFile lum e).ended = .ok ()) :
    ∃ as, Shown lum e as := by
  unfold showFile at h
  cases ei : loadImage e lum with
  | ok i =>
    rw [ei] at h
    obtain ⟨bs, as, e1, e2⟩ := showLoop_done _ _ _ h
    exact ⟨as, ⟨i, bs, ei, hs i ei, e1, e2⟩⟩
  | _ => rw [ei] at h; cases h

/-- So was what was learned to the end. -/
theorem glyphsOfLoop_done {i : Image} {font : List Nat} : ∀ (fuel x : Nat) (s : IS) (out : List Nat),
    (glyphsOfLoop i font fuel x s out).ended = .ok () → ∃ bs as, segmentFrom i fuel x = .ok bs ∧ Pictures i bs as
  | 0, _, _, _, h => by cases h
  | fuel + 1, x, s, out, h => by
    unfold glyphsOfLoop glyphStep at h
    unfold segmentFrom
    cases eb : makeBox i x 0 i.bounds with
    | ok b =>
      rw [eb, Res.ok_bind] at h
      rw [Res.ok_bind]
      by_cases t : b.truthy = true
      · rw [if_pos t] at h ⊢
        cases es : i.section b.x b.y b.bounds with
        | ok a =>
          rw [es, Res.ok_bind] at h
          dsimp only at h
          by_cases hf : (s.str []).2.fail = true
          · rw [if_pos hf] at h
            cases h
          · rw [if_neg hf] at h
            cases et : glyphWrite ⟨a, [⟨(s.str []).1, font, maxU⟩]⟩ with
            | ok t =>
              rw [et] at h
              obtain ⟨bs, as, e1, e2⟩ := glyphsOfLoop_done fuel _ _ _ h
              rw [e1]
              exact ⟨b :: bs, a :: as, rfl, es, e2⟩
            | _ => rw [et] at h; cases h
        | _ => rw [es] at h; cases h
      · rw [if_neg t]
        exact ⟨[], [], rfl, trivial⟩
    | _ => rw [eb] at h; cases h

theorem shown_of_learned {lum : Nat} {e : FileEnv} {t font : List Nat} (hs : SmallPicture lum e)
    (h : (loadFile lum ⟨e, some t, font⟩).ended = .ok ()) : ∃ as, Shown lum e as := by
  unfold loadFile openText at h
  dsimp only at h
  cases ei : loadImage e lum with
  | ok i =>
    rw [ei] at h
    simp only [Res.ok_bind, Res.pure_eq] at h
    obtain ⟨bs, as, e1, e2⟩ := glyphsOfLoop_done _ _ _ _ h
    exact ⟨as, ⟨i, bs, ei, hs i ei, e1, e2⟩⟩
  | _ => rw [ei] at h; cases h

/-- What is written for a line depends on the pictures of its letters, the text and the font. -/
theorem loadFile_shown {lum : Nat} {e e' : FileEnv} {as : List Image} (h : Shown lum e as) (h' : Shown lum e' as)
    (text : Option (List Nat)) (font : List Nat) : loadFile lum ⟨e', text, font⟩ = loadFile lum ⟨e, text, font⟩ := by
  obtain ⟨i, bs, hl, hsz, hs, hp⟩ := h.ex
  obtain ⟨i', bs', hl', hsz', hs', hp'⟩ := h'.ex
  cases text with
  | none =>
    unfold loadFile
    rw [hl, hl']
    rfl
  | some t =>
    obtain ⟨ws, hw⟩ := textWords_exists t.length t (Nat.le_refl _)
    obtain ⟨r, e1, e2⟩ := C65_line lum ⟨⟨e, some t, font⟩, i, bs, as, ws⟩ ⟨⟨t, rfl, hw⟩, hl, hsz, hs, hp⟩
    obtain ⟨r', e1', e2'⟩ := C65_line lum ⟨⟨e', some t, font⟩, i', bs', as, ws⟩ ⟨⟨t, rfl, hw⟩, hl', hsz', hs', hp'⟩
    have er : r' = r := by
      have : glyphsWrite (lineGlyphs font as ws) = .ok r := e1
      have k : glyphsWrite (lineGlyphs font as ws) = .ok r' := e1'
      rw [this] at k
      cases k
      rfl
    have n1 := pictures_length hp
    have n2 := pictures_length hp'
    dsimp only at e2 e2'
    rw [e2, e2', er, n1, n2]

/-! ### The claim -/

/-- **C101**, one line: if `show_glyphs` shows the same for two picture files, to the end, then `write_glyphs` writes the same
for them and ends alike, whatever text and font go with them. -/
theorem C101_line (lum : Nat) (e e' : FileEnv) (hs : SmallPicture lum e) (hs' : SmallPicture lum e')
    (hok : (showFile lum e).ended = .ok ()) (h : showFile lum e' = showFile lum e) (text : Option (List Nat)) (font : List Nat) :
    loadFile lum ⟨e', text, font⟩ = loadFile lum ⟨e, text, font⟩ := by
  obtain ⟨as, ha⟩ := shown_of hs hok
  obtain ⟨as', ha'⟩ := shown_of hs' (by rw [h]; exact hok)
  obtain ⟨k1, c1⟩ := C73_line lum e as ha
  obtain ⟨k2, c2⟩ := C73_line lum e' as' ha'
  rw [k1, k2] at h
  injection h with h _
  rw [gallery_inj as' as c2 c1 h] at ha'
  exact loadFile_shown ha ha' text font

/-- **C101**, the other way round: if `write_glyphs` writes the same for two picture files with the same text (of as many words as
letters) and font, then `show_glyphs` shows the same for them. -/
theorem C101_back (lum : Nat) (e e' : FileEnv) (hs : SmallPicture lum e) (hs' : SmallPicture lum e') (t font : List Nat)
    (hf : Token font) (hok : (loadFile lum ⟨e, some t, font⟩).ended = .ok ())
    (h : loadFile lum ⟨e', some t, font⟩ = loadFile lum ⟨e, some t, font⟩) : showFile lum e' = showFile lum e := by
  obtain ⟨as, ha⟩ := shown_of_learned hs hok
  obtain ⟨as', ha'⟩ := shown_of_learned hs' (by rw [h]; exact hok)
  obtain ⟨i, bs, hl, hsz, hsg, hp⟩ := ha.ex
  obtain ⟨i', bs', hl', hsz', hsg', hp'⟩ := ha'.ex
  obtain ⟨ws, hw⟩ := textWords_exists t.length t (Nat.le_refl _)
  have L : (Lesson.mk ⟨e, some t, font⟩ i bs as ws).Holds lum := ⟨⟨t, rfl, hw⟩, hl, hsz, hsg, hp⟩
  have L' : (Lesson.mk ⟨e', some t, font⟩ i' bs' as' ws).Holds lum := ⟨⟨t, rfl, hw⟩, hl', hsz', hsg', hp'⟩
  obtain ⟨r, e1, e2⟩ := C65_line lum _ L
  obtain ⟨r', e1', e2'⟩ := C65_line lum _ L'
  dsimp only at e2 e2'
  rw [e2, e2'] at h
  rw [e2] at hok
  injection h with h h2
  subst h
  have n : ws.length = bs.length := by
    apply Decidable.byContradiction
    intro hn
    rw [if_neg hn] at hok
    cases hok
  have n' : ws.length = bs'.length := by
    apply Decidable.byContradiction
    intro hn
    rw [if_neg hn, if_pos n] at h2
    cases h2
  have g1 := fun g hg => (line_readable L hf g hg).toGood
  have g2 := fun g hg => (line_readable L' hf g hg).toGood
  obtain ⟨u, f1, f2⟩ := C46_round_trip _ [] g1
  obtain ⟨u', f1', f2'⟩ := C46_round_trip _ [] g2
  rw [e1] at f1
  rw [e1'] at f1'
  cases f1
  cases f1'
  rw [f2'] at f2
  injection f2 with f2
  injection f2 with f2 _
  rw [List.nil_append, List.nil_append] at f2
  have k := C73_same lum _ L n
  have k' := C73_same lum _ L' n'
  dsimp only at k k'
  rw [k, k', f2]

/-- **C101**, a run over many lines. -/
theorem C101_lines (lum : Nat) : ∀ (js js' : List Job), js'.length = js.length →
    (∀ p ∈ js.zip js', p.2.text = p.1.text ∧ p.2.font = p.1.font ∧ SmallPicture lum p.1.image ∧ SmallPicture lum p.2.image ∧
      (showFile lum p.1.image).ended = .ok () ∧ showFile lum p.2.image = showFile lum p.1.image) →
    writeGlyphs lum js' = writeGlyphs lum js
  | [], [], _, _ => rfl
  | [], _ :: _, h, _ => by cases h
  | _ :: _, [], h, _ => by cases h
  | j :: js, j' :: js', h, hp => by
    obtain ⟨h1, h2, h3, h4, h5, h6⟩ := hp (j, j') (by simp)
    have e := C101_line lum j.image j'.image h3 h4 h5 h6 j.text j.font
    dsimp only at h1 h2
    have ej : j' = ⟨j'.image, j.text, j.font⟩ := by rw [← h1, ← h2]
    unfold writeGlyphs
    rw [ej, e, C101_lines lum js js' (by simpa using h) fun p hm => hp p (by simp [hm])]

/-- **C101**, so the same is read afterwards, whatever line it is and whatever the other files hold. -/
theorem C101_read {P : Type} [Dbl P] (S : StdSort) (lum : Nat) (js js' : List Job) (hl : js'.length = js.length)
    (h : ∀ p ∈ js.zip js', p.2.text = p.1.text ∧ p.2.font = p.1.font ∧ SmallPicture lum p.1.image ∧ SmallPicture lum p.2.image ∧
      (showFile lum p.1.image).ended = .ok () ∧ showFile lum p.2.image = showFile lum p.1.image)
    (image : FileEnv) (infos dict : Option TextFile) :
    learnAndRead P S lum js' image infos dict = learnAndRead P S lum js image infos dict := by
  unfold learnAndRead
  rw [C101_lines lum js js' hl h]

/-! ### Examples -/

theorem small_ppm {lum : Nat} {e : FileEnv} {i : Image} (h : loadImage e lum = .ok i)
    (hs : i.bounds.w * i.bounds.h + i.bounds.w ≤ 2 ^ 32) : SmallPicture lum e := by
  intro j hj
  rw [h] at hj
  cases hj
  exact hs

/-- The line `a! a` set narrowly and widely, the second also lower: the same is shown, so the same is learned. -/
example : showFile 128 (ppm (padded 3 2 0 1 (spread [(0, 2), (7, 1), (2, 2)]))) = showFile 128 (ppm blockGap) ∧
    writeGlyphs 128 [⟨ppm (padded 3 2 0 1 (spread [(0, 2), (7, 1), (2, 2)])), some (bytes " a ! \na\n"), bytes "font"⟩] =
      writeGlyphs 128 [lesson.job] := by
  have e : showFile 128 (ppm (padded 3 2 0 1 (spread [(0, 2), (7, 1), (2, 2)]))) = showFile 128 (ppm blockGap) := by decide +kernel
  refine ⟨e, C101_lines 128 [lesson.job] _ rfl ?_⟩
  intro p hp
  rw [List.zip_cons_cons, List.zip_nil_left, List.mem_singleton] at hp
  subst hp
  exact ⟨rfl, rfl, small_ppm (i := blockGap) (by decide +kernel) (by decide),
    small_ppm (i := padded 3 2 0 1 (spread [(0, 2), (7, 1), (2, 2)])) (by decide +kernel) (by decide), by decide +kernel, e⟩

/-- And the other way round. -/
example : showFile 128 (ppm (spread [(2, 1), (9, 2)])) = showFile 128 (ppm (spread [(0, 1), (1, 2)])) := by
  refine C101_back 128 _ _ (small_ppm (i := spread [(0, 1), (1, 2)]) (by decide +kernel) (by decide))
    (small_ppm (i := spread [(2, 1), (9, 2)]) (by decide +kernel) (by decide)) (bytes "! a") (bytes "f") ?_ (by decide +kernel)
    (by decide +kernel)
  have : bytes "f" = [102] := by decide +kernel
  rw [this]
  exact ⟨by decide, by decide⟩

/-- Read, the two lines differ: the spaces are elsewhere. -/
theorem C101_not_read : program Frac insertionSort (lessonFiles (ppm (padded 3 2 0 1 (spread [(0, 2), (7, 1), (2, 2)])))) =
      .ok ⟨[97, 32, 33, 97], 0, 3⟩ ∧
    program Frac insertionSort (lessonFiles (ppm blockGap)) = .ok ⟨[97, 33, 32, 97], 0, 3⟩ := by
  constructor <;> decide +kernel

end Ppocr.Props

import Verif.Proofs.Again6
import Verif.Props.LessonOrder

/-! # C110: learning the same lines again -/

namespace Ppocr.Props
open Ppocr Spec

/-- Full statement of **C110** for `extract_text6`: learning the same lines a second time changes nothing. -/
def C110_statement : Prop :=
  ∀ (S : StdSort) (lum : Nat) (ls : List Lesson) (image : FileEnv) (i : Image) (dict : Option TextFile) (E : List FNode), ByComparison S →
    Course lum (ls ++ ls) → (taught (ls ++ ls)).length + 63 < W32 → loadDict dict = .ok E → loadImage image 128 = .ok i → LineImage i →
    EachLetter i (fun a => ¬ Jam6 ((taught (ls ++ ls)).map Prod.fst) ((taught (ls ++ ls)).map fun p => [p.2]) a) →
    learnAndRead6 S lum ((ls ++ ls).map Lesson.job) image dict = learnAndRead6 S lum (ls.map Lesson.job) image dict

/-- Full statement of **C110** for `ocr2_extract_text`. -/
def C110_statement2 (P : Type) [Dbl P] (S : StdSort) : Prop :=
  ∀ (lum : Nat) (ls : List Lesson) (image : FileEnv) (infos dict : Option TextFile), Course lum (ls ++ ls) →
    learnAndRead P S lum ((ls ++ ls).map Lesson.job) image infos dict = learnAndRead P S lum (ls.map Lesson.job) image infos dict

theorem used_of_pictured {x y : LGlyph} (h : pictured x = pictured y) : usedWords x = usedWords y := by
  have : glyphWords x = glyphWords y := congrArg Prod.snd h
  simpa using used_of_words (gs' := [x]) (gs := [y]) (by simp [this])

/-- **C110**, partial: how often a picture was learnt with its words does not matter to `extract_text6`, as long as it was at least
twice in both cases or the same number of times. Missing: the difference between once and twice, see `C110_lost6`. -/
theorem C110_twice_partial (S : StdSort) (hS : ByComparison S) (f f' : ProgFiles) (gs gs' : List LGlyph) (h : Taught6 f gs) (h' : Taught6 f' gs')
    (hc : ∀ p, min 2 ((gs'.map pictured).count p) = min 2 ((gs.map pictured).count p)) (hfi : f'.image = f.image) (hfd : f'.dict = f.dict)
    (E : List FNode) (hE : loadDict f.dict = .ok E) (i : Image) (himg : loadImage f.image 128 = .ok i) (hi : LineImage i)
    (hj : EachLetter i fun a => ¬ Jam6 (gs.map LGlyph.img) (gs.map glyphWords) a) :
    program6 S f' = program6 S f := by
  obtain ⟨e', p'⟩ := counts_in (gs := gs') (gs' := gs) fun p => Nat.le_of_eq (hc p)
  obtain ⟨e, p⟩ := counts_in (gs := gs) (gs' := gs') fun p => Nat.le_of_eq (hc p).symm
  refine same_of_letters h h' hfi hfd hE himg hi hj ?_ ?_
  · intro bs as es hpic a ha hja
    exact hj bs as es hpic a ha (jam_in e p' (fun x y hxy => congrArg Prod.snd hxy) hja)
  · intro bs as es hpic a ha o o' ho ho'
    have ho : Read6 S _ _ a o := ho.mono fun _ _ q => q.natural hS
    have ho' : Read6 S _ _ a o' := ho'.mono fun _ _ q => q.natural hS
    have hW : ∀ x y : LGlyph, pictured x = pictured y → usedWords x = usedWords y := fun _ _ => used_of_pictured
    exact ho'.unique ho (by simp) (fun v => ⟨near_in e' hW, near_in e hW⟩) (fun v => ⟨match_in e' hW, match_in e hW⟩)
      ⟨matches_in e', matches_in e⟩ fun v => ⟨kept_in e' p' p hW, kept_in e p p' hW⟩

/-- **C110**, partial: on a line all of whose letters match a learnt glyph, it does not matter to `extract_text6` how often each was
learnt. Missing: letters that are only near to learnt ones. -/
theorem C110_matched_partial (S : StdSort) (hS : ByComparison S) (f f' : ProgFiles) (gs gs' : List LGlyph) (h : Taught6 f gs)
    (h' : Taught6 f' gs') (hc : ∀ p, p ∈ gs'.map pictured ↔ p ∈ gs.map pictured) (hfi : f'.image = f.image) (hfd : f'.dict = f.dict)
    (E : List FNode) (hE : loadDict f.dict = .ok E) (i : Image) (himg : loadImage f.image 128 = .ok i) (hi : LineImage i)
    (hm : EachLetter i fun a => ∃ g ∈ gs, Exact6 g.img a) :
    program6 S f' = program6 S f := by
  have e : EachIn gs gs' := by
    intro x hx
    obtain ⟨x', hm, e⟩ := List.mem_map.1 ((hc _).2 (List.mem_map_of_mem hx))
    exact ⟨x', hm, e⟩
  have e' : EachIn gs' gs := by
    intro x hx
    obtain ⟨x', hm, e⟩ := List.mem_map.1 ((hc _).1 (List.mem_map_of_mem hx))
    exact ⟨x', hm, e⟩
  have hmatch : ∀ {bs as}, segment i = .ok bs → Pictures i bs as → ∀ a ∈ as, ∃ k, Match6 (gs.map LGlyph.img) a k := by
    intro bs as es hpic a ha
    obtain ⟨g, hg, hx⟩ := hm bs as es hpic a ha
    obtain ⟨k, hk⟩ := List.getElem?_of_mem hg
    exact ⟨k, g.img, map_get.2 ⟨g, hk, rfl⟩, hx⟩
  refine same_of_letters h h' hfi hfd hE himg hi ?_ ?_ ?_
  · intro bs as es hpic a ha hja
    obtain ⟨k, hk⟩ := hmatch es hpic a ha
    exact hja.1 k hk
  · intro bs as es hpic a ha hja
    obtain ⟨k, hk⟩ := matches_in e (hmatch es hpic a ha)
    exact hja.1 k hk
  · intro bs as es hpic a ha o o' ho ho'
    have ho : Read6 S _ _ a o := ho.mono fun _ _ q => q.natural hS
    have ho' : Read6 S _ _ a o' := ho'.mono fun _ _ q => q.natural hS
    have hW : ∀ x y : LGlyph, pictured x = pictured y → usedWords x = usedWords y := fun _ _ => used_of_pictured
    obtain ⟨near, kept, _, _, n, k, rfl, rfl, rfl⟩ := ho
    obtain ⟨near', kept', _, _, n', k', rfl, rfl, rfl⟩ := ho'
    have := n.unique n' (fun v => ⟨near_in e hW, near_in e' hW⟩) fun v _ => ⟨match_in e hW, match_in e' hW⟩
    subst this
    obtain ⟨j, i', hi', hx⟩ := hmatch es hpic a ha
    obtain ⟨g, hg, rfl⟩ := map_get.1 hi'
    have hw : (gs.map usedWords)[j]? = some (usedWords g) := map_get.2 ⟨g, hg, rfl⟩
    obtain ⟨w, r, er⟩ := (sort_ordered S near).head ((n.mem _ _).2 ⟨⟨j, _, hi', exact_near hx, hw⟩, fun _ => ⟨j, ⟨_, hi', hx⟩, hw⟩, fun _ => rfl⟩)
    rw [er]
    exact letterFrom_match

/-! ### The lessons -/

theorem lesson_pictured (ls : List Lesson) : (ls.flatMap Lesson.glyphs).map pictured = (taught ls).map fun p => (p.1, [p.2]) := by
  obtain ⟨h1, h2⟩ := course_imgs ls
  have key : ∀ l : List LGlyph, l.map pictured = (l.map LGlyph.img).zip (l.map glyphWords) := by
    intro l
    rw [List.zip_map']
    rfl
  rw [key, h1, h2, List.zip_map']

/-- **C110**, partial: learning again the lines that were learnt twice changes nothing. -/
theorem C110_third_partial (S : StdSort) (hS : ByComparison S) (lum : Nat) (ls ls' : List Lesson) (image : FileEnv) (i : Image) (dict : Option TextFile)
    (E : List FNode) (h' : Course lum (ls ++ ls ++ ls')) (hsub : ∀ l ∈ ls', l ∈ ls) (hn : (taught (ls ++ ls ++ ls')).length + 63 < W32)
    (hE : loadDict dict = .ok E) (hl : loadImage image 128 = .ok i) (hi : LineImage i)
    (hj : EachLetter i fun a => ¬ Jam6 ((taught (ls ++ ls)).map Prod.fst) ((taught (ls ++ ls)).map fun p => [p.2]) a) :
    learnAndRead6 S lum ((ls ++ ls ++ ls').map Lesson.job) image dict = learnAndRead6 S lum ((ls ++ ls).map Lesson.job) image dict := by
  have htake : taught (ls ++ ls ++ ls') = taught (ls ++ ls) ++ taught ls' := by rw [taught, List.flatMap_append]; rfl
  have h : Course lum (ls ++ ls) := by
    refine ⟨fun l hl => h'.holds l (List.mem_append_left _ hl), fun l hl => h'.count l (List.mem_append_left _ hl),
      fun l hl => h'.letters l (List.mem_append_left _ hl), fun l hl => h'.font l (List.mem_append_left _ hl),
      fun p hp => h'.text p (by rw [htake]; exact List.mem_append_left _ hp), ?_⟩
    have := h'.size
    rw [htake, List.map_append, List.sum_append_nat] at this
    omega
  have hn2 : (taught (ls ++ ls)).length + 63 < W32 := by
    rw [htake, List.length_append] at hn
    omega
  obtain ⟨g, d, hT⟩ := h.taught6 hn2
  obtain ⟨g', d', hT'⟩ := h'.taught6 hn
  obtain ⟨t, e⟩ := hT S image dict
  obtain ⟨t', e'⟩ := hT' S image dict
  obtain ⟨h1, h2⟩ := course_imgs (ls ++ ls)
  rw [e, e']
  refine C110_twice_partial S hS _ _ _ _ t t' ?_ rfl rfl E hE i hl hi (by rw [h1, h2]; exact hj)
  intro p
  rw [lesson_pictured, lesson_pictured, htake, List.map_append, List.count_append]
  by_cases hp : p ∈ (taught ls').map fun p => (p.1, [p.2])
  · have hin : p ∈ (taught ls).map fun p => (p.1, [p.2]) := by
      obtain ⟨q, hq, rfl⟩ := List.mem_map.1 hp
      obtain ⟨l, hl, hq⟩ := List.mem_flatMap.1 hq
      exact List.mem_map.2 ⟨q, List.mem_flatMap.2 ⟨l, hsub l hl, hq⟩, rfl⟩
    have := List.count_pos_iff.2 hin
    have h2 : taught (ls ++ ls) = taught ls ++ taught ls := List.flatMap_append
    rw [h2, List.map_append, List.count_append]
    omega
  · rw [List.count_eq_zero.2 hp, Nat.add_zero]

theorem InfoFile.same {ls ls' : List Lesson} {infos : Option TextFile} (h : InfoFile ls infos) (hm : ∀ p, p ∈ taught ls' ↔ p ∈ taught ls) :
    InfoFile ls' infos := by
  cases infos with
  | none => trivial
  | some f =>
    obtain ⟨t, es, e, he, hw⟩ := h
    refine ⟨t, es, e, he, fun x hx hlen => ⟨(hw x hx hlen).1, ?_⟩⟩
    rcases (hw x hx hlen).2 with ⟨p, h1, h2⟩ | h
    · exact .inl ⟨p, (hm p).2 h1, h2⟩
    · exact .inr fun p h1 h2 => h p ((hm p).1 h1) fun q hq => h2 q ((hm q).2 hq)

/-- **C110** for `ocr2_extract_text`, partial: a line whose letters look like letters that were shown, each with one word only, is
read the same however often and from which lines they were learnt. Missing: letters that were shown with several words, see
`C110_turned`. -/
theorem C110_sure_partial {P : Type} [ScoreDbl P] (S : StdSort) (lum : Nat) (ls ls' : List Lesson) (infos dict : Option TextFile)
    (ws : List (List Nat)) (image : FileEnv) (i : Image) (bs : List Box) (as : List Image) (texts : List (List Nat))
    (h : Course lum ls) (h' : Course lum ls') (hmem : ∀ p, p ∈ taught ls' ↔ p ∈ taught ls) (h4 : ∀ p ∈ taught ls, p.2.length % 4 ≠ 0)
    (hinf : InfoFile ls infos) (hd : DictFile S ws dict) (hl : loadImage image 128 = .ok i) (hi : LineImage i)
    (hsp : ∀ b bs, segment i = .ok (b :: bs) → LowHeld b bs) (hs : segment i = .ok bs) (hp : Pictures i bs as)
    (hlen : texts.length = as.length) (hm : ∀ (k : Nat) a cs, as[k]? = some a → texts[k]? = some cs → Stands ls a cs)
    (hone : Uncut ws texts) :
    learnAndRead P S lum (ls'.map Lesson.job) image infos dict = learnAndRead P S lum (ls.map Lesson.job) image infos dict := by
  rw [C67_exact_partial S lum ls infos dict ws image i bs as texts h h4 hinf hd hl hi hsp hs hp hlen hm hone,
    C67_exact_partial S lum ls' infos dict ws image i bs as texts h' (fun p hp => h4 p ((hmem p).1 hp)) (hinf.same hmem) hd hl hi
      hsp hs hp hlen ?_ hone]
  intro k a cs ha hc
  obtain ⟨h1, ⟨p, hp, hpa⟩, h3⟩ := hm k a cs ha hc
  exact ⟨h1, ⟨p, (hmem p).2 hp, hpa⟩, fun q hq hqa => h3 q ((hmem q).1 hq) hqa⟩

/-! ### Examples -/

/-- A block with a narrow hole. -/
def slotted : Image := ⟨⟨5, 6⟩, (List.range 30).map fun k => if k = 11 ∨ k = 16 then 45 else 120⟩

/-- The same with a notch on the right. -/
def notched : Image := ⟨⟨5, 6⟩, (List.range 30).map fun k => if k = 11 ∨ k = 16 ∨ k = 19 then 45 else 120⟩

/-- The block alone. -/
def slottedLine : Image := ⟨⟨6, 6⟩, (List.range 36).map fun k => if k = 13 ∨ k = 19 ∨ k % 6 = 5 then 45 else 120⟩

/-- Two blocks with a notch. -/
def notchedLine : Image := ⟨⟨14, 6⟩,
  let f := [120, 120, 120, 120, 120, 45, 45, 120, 120, 120, 120, 120, 45, 45]
  f ++ f ++ [120, 45, 120, 120, 120, 45, 45, 120, 45, 120, 120, 120, 45, 45] ++
    [120, 45, 120, 120, 45, 45, 45, 120, 45, 120, 120, 45, 45, 45] ++ f ++ f⟩

/-- The block is shown as `a`. -/
def slottedLesson : Lesson := ⟨⟨ppm slottedLine, some (bytes "a"), bytes "font"⟩, slottedLine, [⟨0, 0, 5, 6⟩], [slotted], [[97]]⟩

/-- Learnt once, the blocks with a notch are read as `a`. Learnt twice or three times, they are not recognised. -/
theorem C110_lost6 :
    learnAndRead6 insertionSort 128 [slottedLesson.job] (ppm notchedLine) none = .ok ⟨bytes "a a ", bytes "a a ", bytes "aa"⟩ ∧
    learnAndRead6 insertionSort 128 [slottedLesson.job, slottedLesson.job] (ppm notchedLine) none =
      .ok ⟨bytes "a a ", bytes "_ _ ", bytes "_"⟩ ∧
    learnAndRead6 insertionSort 128 [slottedLesson.job, slottedLesson.job, slottedLesson.job] (ppm notchedLine) none =
      .ok ⟨bytes "a a ", bytes "_ _ ", bytes "_"⟩ := by
  refine ⟨by decide +kernel, by decide +kernel, by decide +kernel⟩

/-- The line `a ! b` with the same picture first and last is read as `a! a` when it was learnt once, as `b! b` when twice. -/
theorem C110_turned :
    learnAndRead Frac insertionSort 128 [lessonB.job] (ppm blockGap) none none = .ok ⟨[97, 33, 32, 97], 0, 3⟩ ∧
    learnAndRead Frac insertionSort 128 [lessonB.job, lessonB.job] (ppm blockGap) none none = .ok ⟨[98, 33, 32, 98], 0, 3⟩ := by
  constructor <;> decide +kernel

theorem slottedLesson_holds : slottedLesson.Holds 128 :=
  ⟨⟨_, rfl, by
    rw [show bytes "a" = [97] by decide +kernel]
    exact .more _ _ [] _ ⟨[], rfl, by simp, by simp, by simp [Blank], by simp⟩ (.stop _ (by simp))⟩,
    by decide +kernel, by decide, by decide +kernel, ⟨by decide +kernel, trivial⟩⟩

theorem slottedLesson_course : Course 128 ([slottedLesson] ++ [slottedLesson]) := by
  have hl : ∀ l ∈ [slottedLesson] ++ [slottedLesson], l = slottedLesson := by intro l h; simpa using h
  have ht : taught ([slottedLesson] ++ [slottedLesson]) = [(slotted, [97]), (slotted, [97])] := rfl
  refine ⟨?_, ?_, ?_, ?_, ?_, by rw [ht]; decide⟩
  · intro l h; rw [hl l h]; exact slottedLesson_holds
  · intro l h; rw [hl l h]; rfl
  · intro l h; rw [hl l h]; decide
  · intro l h; rw [hl l h]; exact ⟨by decide +kernel, by decide +kernel⟩
  · intro p hp
    rw [ht] at hp
    simp only [List.mem_cons, List.not_mem_nil, or_false, or_self] at hp
    subst hp
    exact ⟨[97], by simp [Scalar], rfl⟩

theorem notchedLine_line : LineImage notchedLine := by
  refine ⟨⟨rfl, by decide, by decide, by decide⟩, by decide, by decide, by decide, .inl (by decide), ?_⟩
  intro bs h
  rw [show segment notchedLine = .ok [⟨0, 0, 5, 6⟩, ⟨7, 0, 5, 6⟩] by decide +kernel] at h
  cases h
  decide

theorem slotted_sized : Sized slotted := ⟨⟨by decide, by decide, by decide, by decide⟩, by decide, by decide, by decide, by decide⟩

theorem notched_sized : Sized notched := ⟨⟨by decide, by decide, by decide, by decide⟩, by decide, by decide, by decide, by decide⟩

theorem notched_zones : ¬ SameZones slotted notched := by
  rintro ⟨_, _, _, _, F, G, _, _, _, _, _, hF, hG, h⟩
  have h1 : (propZoneLoad slotted).bind (fun u => .ok u.length) = .ok 0 := by decide +kernel
  have h2 : (propZoneLoad notched).bind (fun u => .ok u.length) = .ok 1 := by decide +kernel
  obtain ⟨u, eu, lu⟩ := Res.bind_eq_ok.1 h1
  obtain ⟨v, ev, lv⟩ := Res.bind_eq_ok.1 h2
  rw [← propZone_length slotted_sized eu hF, ← propZone_length notched_sized ev hG] at h
  rw [Res.ok.injEq] at lu lv
  omega

theorem notchedLine_letters {P : Image → Prop} (h : P notched) : EachLetter notchedLine P := by
  intro bs as e hp a ha
  rw [show segment notchedLine = .ok [⟨0, 0, 5, 6⟩, ⟨7, 0, 5, 6⟩] by decide +kernel] at e
  cases e
  have hp' : Pictures notchedLine [⟨0, 0, 5, 6⟩, ⟨7, 0, 5, 6⟩] [notched, notched] := ⟨by decide +kernel, by decide +kernel, trivial⟩
  rw [pictures_unique hp hp'] at ha
  simp only [List.mem_cons, List.not_mem_nil, or_false, or_self] at ha
  rw [ha]
  exact h

/-- **C110** is false of `extract_text6`: see `C110_lost6`. -/
theorem C110_false6 : ¬ C110_statement := by
  intro h
  have := h insertionSort 128 [slottedLesson] (ppm notchedLine) notchedLine none [] insertionSort_byComparison slottedLesson_course
    (by rw [show taught ([slottedLesson] ++ [slottedLesson]) = [(slotted, [97]), (slotted, [97])] from rfl]; decide) rfl
    (by decide +kernel) notchedLine_line (notchedLine_letters (by
      rintro ⟨_, g, i, j, b, _, _, _, _, hb, hz, _⟩
      rw [show (taught ([slottedLesson] ++ [slottedLesson])).map Prod.fst = [slotted, slotted] from rfl] at hb
      have : b ∈ [slotted, slotted] := List.mem_of_getElem? hb
      simp only [List.mem_cons, List.not_mem_nil, or_false, or_self] at this
      subst this
      exact notched_zones hz))
  rw [show ([slottedLesson] ++ [slottedLesson]).map Lesson.job = [slottedLesson.job, slottedLesson.job] from rfl,
    show [slottedLesson].map Lesson.job = [slottedLesson.job] from rfl, C110_lost6.1, C110_lost6.2.1] at this
  exact absurd (congrArg (fun r => match r with | Res.ok a => Answer6.res2 a | _ => []) this) (by decide +kernel)

/-- **C110** is false of `ocr2_extract_text`: see `C110_turned`. -/
theorem C110_false : ¬ C110_statement2 Frac insertionSort := by
  intro h
  have hc : Course 128 ([lessonB] ++ [lessonB]) := by
    have hl : ∀ l ∈ [lessonB] ++ [lessonB], l = lessonB := by intro l h; simpa using h
    have ht : taught ([lessonB] ++ [lessonB]) = [(block, [97]), (bar, [33]), (block, [98]), (block, [97]), (bar, [33]), (block, [98])] := rfl
    refine ⟨?_, ?_, ?_, ?_, ?_, by rw [ht]; decide⟩
    · intro l h; rw [hl l h]; exact lessonB_holds
    · intro l h; rw [hl l h]; rfl
    · intro l h; rw [hl l h]; decide
    · intro l h; rw [hl l h]; exact ⟨by decide +kernel, by decide +kernel⟩
    · intro p hp
      refine lessonB_course.text p ?_
      rw [ht] at hp
      rw [show taught [lesson, lessonB] = [(block, [97]), (bar, [33]), (block, [97]), (block, [97]), (bar, [33]), (block, [98])] from rfl]
      simp only [List.mem_cons, List.not_mem_nil, or_false] at hp ⊢
      rcases hp with h | h | h | h | h | h <;> simp [h]
  have := h 128 [lessonB] (ppm blockGap) none none hc
  rw [show ([lessonB] ++ [lessonB]).map Lesson.job = [lessonB.job, lessonB.job] from rfl,
    show [lessonB].map Lesson.job = [lessonB.job] from rfl, C110_turned.1, C110_turned.2] at this
  exact absurd this (by decide)

end Ppocr.Props

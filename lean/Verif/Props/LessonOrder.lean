import Verif.Props.SortFree6
import Verif.Props.Learn6
import Verif.Props.Pipeline

/-! # C109: the order of the lessons -/

namespace Ppocr.Props
open Ppocr Spec

/-- Full statement of **C109** for `ocr2_extract_text`: it does not matter in which order the lines were learnt. -/
def C109_statement (P : Type) [Dbl P] (S : StdSort) : Prop :=
  ∀ (lum : Nat) (ls ls' : List Lesson) (image : FileEnv) (infos dict : Option TextFile), Course lum ls → ls'.Perm ls →
    learnAndRead P S lum (ls'.map Lesson.job) image infos dict = learnAndRead P S lum (ls.map Lesson.job) image infos dict

theorem taught_perm {ls ls' : List Lesson} (h : ls'.Perm ls) : (taught ls').Perm (taught ls) := h.flatMap_right _

theorem Course.perm {lum : Nat} {ls ls' : List Lesson} (h : Course lum ls) (hp : ls'.Perm ls) : Course lum ls' := by
  refine ⟨fun l hl => h.holds l (hp.mem_iff.1 hl), fun l hl => h.count l (hp.mem_iff.1 hl), fun l hl => h.letters l (hp.mem_iff.1 hl),
    fun l hl => h.font l (hp.mem_iff.1 hl), fun p hl => h.text p ((taught_perm hp).mem_iff.1 hl), ?_⟩
  have := ((taught_perm hp).map fun p => p.2.length + 1).sum_nat
  rw [this]
  exact h.size

/-- What the two learning tools make of the lessons. -/
theorem Course.taught6 {lum : Nat} {ls : List Lesson} (h : Course lum ls) (hn : (taught ls).length + 63 < W32) :
    ∃ g d, ∀ S image dict, Taught6 ⟨some g, some d, image, none, dict⟩ (ls.flatMap Lesson.glyphs) ∧
      learnAndRead6 S lum (ls.map Lesson.job) image dict = program6 S ⟨some g, some d, image, none, dict⟩ := by
  obtain ⟨t, ht, e1, _⟩ := C65_lines lum ls fun l hl => ⟨h.holds l hl, h.count l hl⟩
  have hg : ∀ g ∈ ls.flatMap Lesson.glyphs, g.Good := fun g hg => (h.readable g hg).toGood
  have hs := h.letter
  have hlen := h.few.1
  obtain ⟨d, hd1, _⟩ := learnt_loadAll ((ls.flatMap Lesson.glyphs).map LGlyph.img) (by
    intro a ha
    obtain ⟨g, hg, rfl⟩ := List.mem_map.1 ha
    exact hs g hg)
  have e2 : writeDatas (some t) = .ok (0, datasWrite d) := by
    unfold writeDatas IS.of
    simp only []
    rw [datasLoop_write _ t (t.length + 1) Datas.empty d hg ht (by
      obtain ⟨_, e, hl⟩ := glyphsWrite_total hg
      rw [ht] at e
      cases e
      omega) hd1]
    rfl
  refine ⟨t, datasWrite d, fun S image dict => ⟨⟨hg, ?_, hs, by rw [hlen]; exact hn, d, t, hd1, ht, rfl, rfl⟩, ?_⟩⟩
  · intro g hg
    obtain ⟨w, f, _, e⟩ := glyphs_taught hg
    rw [e]; simp
  · unfold learnAndRead6
    rw [e1]
    simp only [Res.ok_bind, e2, ne_eq, not_true_eq_false, if_false]

/-- **C109** for `extract_text6`: it does not matter in which order the letters were learnt, from which lines and with which
fonts. -/
theorem C109_letters6 (S : StdSort) (hS : ByComparison S) (lum : Nat) (ls ls' : List Lesson) (image : FileEnv) (i : Image) (dict : Option TextFile)
    (E : List FNode) (h : Course lum ls) (h' : Course lum ls') (hn : (taught ls).length + 63 < W32) (hp : (taught ls').Perm (taught ls))
    (hE : loadDict dict = .ok E) (hl : loadImage image 128 = .ok i) (hi : LineImage i)
    (hj : EachLetter i fun a => ¬ Jam6 ((taught ls).map Prod.fst) ((taught ls).map fun p => [p.2]) a) :
    learnAndRead6 S lum (ls'.map Lesson.job) image dict = learnAndRead6 S lum (ls.map Lesson.job) image dict := by
  obtain ⟨g, d, hT⟩ := h.taught6 hn
  obtain ⟨g', d', hT'⟩ := h'.taught6 (by rw [hp.length_eq]; exact hn)
  obtain ⟨t, e⟩ := hT S image dict
  obtain ⟨t', e'⟩ := hT' S image dict
  obtain ⟨h1, h2⟩ := course_imgs ls
  obtain ⟨h1', h2'⟩ := course_imgs ls'
  have hpic : ∀ ls : List Lesson, (ls.flatMap Lesson.glyphs).map pictured = (taught ls).map fun p => (p.1, [p.2]) := by
    intro ls
    obtain ⟨h1, h2⟩ := course_imgs ls
    have key : ∀ l : List LGlyph, l.map pictured = (l.map LGlyph.img).zip (l.map glyphWords) := by
      intro l
      rw [List.zip_map']
      rfl
    rw [key, h1, h2, List.zip_map']
  rw [e, e']
  refine C106_order S hS _ _ _ _ t t' ?_ rfl rfl E hE i hl hi ?_
  · rw [hpic, hpic]
    exact hp.map _
  · rw [h1, h2]
    exact hj

/-- In particular the order of the lessons does not matter. -/
theorem C109_lessons6 (S : StdSort) (hS : ByComparison S) (lum : Nat) (ls ls' : List Lesson) (image : FileEnv) (i : Image) (dict : Option TextFile)
    (E : List FNode) (h : Course lum ls) (hn : (taught ls).length + 63 < W32) (hp : ls'.Perm ls)
    (hE : loadDict dict = .ok E) (hl : loadImage image 128 = .ok i) (hi : LineImage i)
    (hj : EachLetter i fun a => ¬ Jam6 ((taught ls).map Prod.fst) ((taught ls).map fun p => [p.2]) a) :
    learnAndRead6 S lum (ls'.map Lesson.job) image dict = learnAndRead6 S lum (ls.map Lesson.job) image dict :=
  C109_letters6 S hS lum ls ls' image i dict E h (h.perm hp) hn (taught_perm hp) hE hl hi hj

theorem InfoFile.perm {ls ls' : List Lesson} {infos : Option TextFile} (h : InfoFile ls infos) (hp : ls'.Perm ls) : InfoFile ls' infos := by
  cases infos with
  | none => trivial
  | some f =>
    obtain ⟨t, es, e, he, hw⟩ := h
    have hm := fun p => (taught_perm hp).mem_iff (a := p)
    refine ⟨t, es, e, he, fun x hx hlen => ⟨(hw x hx hlen).1, ?_⟩⟩
    rcases (hw x hx hlen).2 with ⟨p, h1, h2⟩ | h
    · exact .inl ⟨p, (hm p).2 h1, h2⟩
    · exact .inr fun p h1 h2 => h p ((hm p).1 h1) fun q hq => h2 q ((hm q).2 hq)

/-- **C109** for `ocr2_extract_text`, partial: a line whose letters look like letters that were shown, each with one word only, is
read the same in whatever order the lessons come. Missing: letters that were shown with several words, see `C109_false`. -/
theorem C109_sure_partial {P : Type} [ScoreDbl P] (S : StdSort) (lum : Nat) (ls ls' : List Lesson) (infos dict : Option TextFile)
    (ws : List (List Nat)) (image : FileEnv) (i : Image) (bs : List Box) (as : List Image) (texts : List (List Nat))
    (h : Course lum ls) (hperm : ls'.Perm ls) (h4 : ∀ p ∈ taught ls, p.2.length % 4 ≠ 0) (hinf : InfoFile ls infos)
    (hd : DictFile S ws dict) (hl : loadImage image 128 = .ok i) (hi : LineImage i)
    (hsp : ∀ b bs, segment i = .ok (b :: bs) → LowHeld b bs) (hs : segment i = .ok bs) (hp : Pictures i bs as)
    (hlen : texts.length = as.length) (hm : ∀ (k : Nat) a cs, as[k]? = some a → texts[k]? = some cs → Stands ls a cs)
    (hone : Uncut ws texts) :
    learnAndRead P S lum (ls'.map Lesson.job) image infos dict = learnAndRead P S lum (ls.map Lesson.job) image infos dict := by
  have hmem := fun p => (taught_perm hperm).mem_iff (a := p)
  rw [C67_exact_partial S lum ls infos dict ws image i bs as texts h h4 hinf hd hl hi hsp hs hp hlen hm hone,
    C67_exact_partial S lum ls' infos dict ws image i bs as texts (h.perm hperm) (fun p hp => h4 p ((hmem p).1 hp)) (hinf.perm hperm) hd hl hi
      hsp hs hp hlen ?_ hone]
  intro k a cs ha hc
  obtain ⟨h1, ⟨p, hp, hpa⟩, h3⟩ := hm k a cs ha hc
  exact ⟨h1, ⟨p, (hmem p).2 hp, hpa⟩, fun q hq hqa => h3 q ((hmem q).1 hq) hqa⟩

/-! ### Examples -/

/-- The lesson with the words `a`, `!`, `b`. -/
def lessonB : Lesson :=
  ⟨⟨ppm blockGap, some (bytes "a ! b"), bytes "font"⟩, blockGap, [⟨0, 0, 2, 2⟩, ⟨3, 0, 1, 2⟩, ⟨9, 0, 2, 2⟩],
    [block, bar, block], [[97], [33], [98]]⟩

/-- The block was shown as `a` three times and once as `b`. The order of the two lines decides which it is. -/
theorem C109_turned :
    learnAndRead Frac insertionSort 128 [lesson.job, lessonB.job] (ppm blockGap) none none = .ok ⟨[97, 33, 32, 97], 0, 3⟩ ∧
    learnAndRead Frac insertionSort 128 [lessonB.job, lesson.job] (ppm blockGap) none none = .ok ⟨[98, 33, 32, 98], 0, 3⟩ := by
  constructor <;> decide +kernel

/-- `extract_text6` reads the same in both orders, here from two lessons that disagree about each letter. -/
example : let l : Job := ⟨ppm blockLine, some (bytes "a a b b"), bytes "f"⟩; let m : Job := ⟨ppm blockLine, some (bytes "c b d a"), bytes "g"⟩
    learnAndRead6 insertionSort 128 [l, m] (ppm blockLine) none = .ok ⟨bytes "a a a a ", bytes "a a a a ", bytes "aa aa"⟩ ∧
      learnAndRead6 insertionSort 128 [m, l] (ppm blockLine) none = learnAndRead6 insertionSort 128 [l, m] (ppm blockLine) none := by
  constructor <;> decide +kernel

theorem lessonB_words : TextWords (bytes "a ! b") [[97], [33], [98]] := by
  have e : bytes "a ! b" = [97, 32, 33, 32, 98] := by decide +kernel
  rw [e]
  refine .more _ _ [32, 33, 32, 98] _ ⟨[], rfl, ?_, by simp, ?_, ?_⟩
    (.more _ _ [32, 98] _ ⟨[32], rfl, ?_, by simp, ?_, ?_⟩
      (.more _ _ [] _ ⟨[32], rfl, ?_, by simp, ?_, ?_⟩ (.stop _ ?_)))
  all_goals simp [Blank]

theorem lessonB_holds : lessonB.Holds 128 :=
  ⟨⟨_, rfl, lessonB_words⟩, by decide +kernel, by decide, by decide +kernel, ⟨by decide, by decide, by decide, trivial⟩⟩

theorem lessonB_course : Course 128 [lesson, lessonB] := by
  have hl : ∀ l ∈ [lesson, lessonB], l = lesson ∨ l = lessonB := by intro l h; simpa using h
  have ht : taught [lesson, lessonB] = [(block, [97]), (bar, [33]), (block, [97]), (block, [97]), (bar, [33]), (block, [98])] := rfl
  refine ⟨?_, ?_, ?_, ?_, ?_, by rw [ht]; decide⟩
  · intro l h; rcases hl l h with rfl | rfl
    · exact lesson_holds
    · exact lessonB_holds
  · intro l h; rcases hl l h with rfl | rfl <;> rfl
  · intro l h; rcases hl l h with rfl | rfl <;> decide
  · intro l h; rcases hl l h with rfl | rfl <;> exact ⟨by decide +kernel, by decide +kernel⟩
  · intro p hp
    rw [ht] at hp
    simp only [List.mem_cons, List.not_mem_nil, or_false] at hp
    rcases hp with rfl | rfl | rfl | rfl | rfl | rfl
    · exact ⟨[97], by simp [Scalar], rfl⟩
    · exact ⟨[33], by simp [Scalar], rfl⟩
    · exact ⟨[97], by simp [Scalar], rfl⟩
    · exact ⟨[97], by simp [Scalar], rfl⟩
    · exact ⟨[33], by simp [Scalar], rfl⟩
    · exact ⟨[98], by simp [Scalar], rfl⟩

/-- The statement does not hold for `ocr2_extract_text`. -/
theorem C109_false : ¬ C109_statement Frac insertionSort := by
  intro h
  have := h 128 [lesson, lessonB] [lessonB, lesson] (ppm blockGap) none none lessonB_course (.swap _ _ _)
  simp only [List.map_cons, List.map_nil] at this
  rw [C109_turned.1, C109_turned.2] at this
  exact absurd this (by decide)

end Ppocr.Props

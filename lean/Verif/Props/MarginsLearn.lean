import Verif.Proofs.MarginsLearn
import Verif.Props.Margins

/-! # Blank margins around the lines to learn from (C79) -/

namespace Ppocr.Props
open Ppocr Spec

/-- The second job is the first with margins around its picture. -/
structure Padded (lum : Nat) (j j' : Job) (left top : Nat) (i i' : Image) : Prop where
  text : j'.text = j.text
  font : j'.font = j.font
  first : loadImage j.image lum = .ok i
  second : loadImage j'.image lum = .ok i'
  margins : Margins left top i i'

/-- Full statement of **C79**: margins change nothing that `write_glyphs` writes for a line, nor how it ends. -/
def C79_statement : Prop :=
  ∀ (lum : Nat) (j j' : Job) (left top : Nat) (i i' : Image), Padded lum j j' left top i i' → loadFile lum j' = loadFile lum j

/-- What the proof asks of the two pictures: no row added to a single one with a blank end, no column added behind a last
column that is not blank. -/
structure Roomy (left : Nat) (i i' : Image) : Prop where
  rows : RowsHeld i i'
  size : i'.bounds.w * i'.bounds.h + i'.bounds.w ≤ W32
  right : i'.bounds.w = left + i.bounds.w ∨ BlankCol i (i.bounds.w - 1)

/-- **C79** for one line, when its last column is blank or no column is added behind it. (What is missing: the other lines,
for which the claim is false, see `C79_last_column` and `C79_one_row`; pictures of almost 2^32 pixels.) -/
theorem C79_line_partial (lum : Nat) (j j' : Job) (left top : Nat) (i i' : Image) (h : Padded lum j j' left top i i')
    (hr : Roomy left i i') : loadFile lum j' = loadFile lum j := by
  have m := h.margins
  have hwd := m.wide
  have hhd := m.high
  have hp := loadImage_picture h.first
  have hp' := loadImage_picture h.second
  have hs : i.bounds.w * i.bounds.h + i.bounds.w ≤ W32 := by
    have := hr.size
    have := Nat.mul_le_mul (show i.bounds.w ≤ i'.bounds.w by omega) (show i.bounds.h ≤ i'.bounds.h by omega)
    omega
  unfold loadFile
  rw [h.text, h.font, h.first, h.second]
  cases openText j.text with
  | ok s =>
    exact glyphsOfLoop_moved m hr.right hp.wf hp'.wf hp.h hr.rows hs hr.size j.font _ _ 0 0 s [] (by omega) (by omega) hp.w (by omega)
      (fun c _ h => m.blank_left (by omega))
  | _ => rfl

/-- **C79** for a whole run of `write_glyphs`. -/
theorem C79_file_partial (lum : Nat) : ∀ (js js' : List Job), js'.length = js.length →
    (∀ p ∈ js.zip js', ∃ left top i i', Padded lum p.1 p.2 left top i i' ∧ Roomy left i i') →
    writeGlyphs lum js' = writeGlyphs lum js
  | [], [], _, _ => rfl
  | [], _ :: _, h, _ => by cases h
  | _ :: _, [], h, _ => by cases h
  | j :: js, j' :: js', h, hp => by
    obtain ⟨left, top, i, i', h1, h2⟩ := hp (j, j') (by simp)
    unfold writeGlyphs
    rw [C79_line_partial lum j j' left top i i' h1 h2,
      C79_file_partial lum js js' (by simpa using h) fun p hm => hp p (by simp [hm])]

/-- So what is read after learning is the same too. -/
theorem C79_read_partial {P : Type} [Dbl P] (S : StdSort) (lum : Nat) (js js' : List Job) (hl : js'.length = js.length)
    (h : ∀ p ∈ js.zip js', ∃ left top i i', Padded lum p.1 p.2 left top i i' ∧ Roomy left i i') (image : FileEnv)
    (infos dict : Option TextFile) :
    learnAndRead P S lum js' image infos dict = learnAndRead P S lum js image infos dict := by
  unfold learnAndRead
  rw [C79_file_partial lum js js' hl h]

/-- **C79** is false: the block without a blank column behind it is learned as a bar. -/
theorem C79_last_column :
    Padded 128 ⟨ppm block, some (bytes "a"), bytes "f"⟩ ⟨ppm (padded 0 0 1 0 block), some (bytes "a"), bytes "f"⟩ 0 0 block
      (padded 0 0 1 0 block) ∧
    loadFile 128 ⟨ppm block, some (bytes "a"), bytes "f"⟩ = ⟨bytes "1 2 xx\n1\na f 4294967295\n", .ok ()⟩ ∧
    loadFile 128 ⟨ppm (padded 0 0 1 0 block), some (bytes "a"), bytes "f"⟩ =
      ⟨bytes "2 2 xxxx\n1\na f 4294967295\n", .ok ()⟩ := by
  refine ⟨⟨rfl, rfl, ?_, ?_, C78_last_column.1⟩, ?_, ?_⟩ <;> decide +kernel

/-- **C79** is false for every line of one row with a blank end and at least a row added to it: it never ends well, at
best with a failed assertion, and the other picture never fails so. -/
theorem C79_one_row (lum : Nat) (j j' : Job) (left top : Nat) (i i' : Image) (h : Padded lum j j' left top i i') (t : List Nat)
    (ht : j.text = some t) (h1 : i.bounds.h = 1) (hb : BlankCol i (i.bounds.w - 1)) (h2 : 1 < i'.bounds.h)
    (hs : i'.bounds.w * i'.bounds.h + i'.bounds.w ≤ W32) :
    (loadFile lum j).ended ≠ .ok () ∧ (loadFile lum j').ended ≠ .abort := by
  have m := h.margins
  have hwd := m.wide
  have hp := loadImage_picture h.first
  have hs1 : i.bounds.w * i.bounds.h + i.bounds.w ≤ W32 := by
    have := Nat.mul_le_mul (show i.bounds.w ≤ i'.bounds.w by omega) (show i.bounds.h ≤ i'.bounds.h by omega)
    omega
  constructor
  · intro e
    unfold loadFile at e
    rw [h.first, ht] at e
    have key : ∀ (fuel x : Nat) (s : IS) (out : List Nat), x < i.bounds.w → (glyphsOfLoop i j.font fuel x s out).ended ≠ .ok () := by
      intro fuel
      induction fuel with
      | zero => intro x s out _ h; cases h
      | succ fuel ih =>
        intro x s out hx e
        unfold glyphsOfLoop glyphStep at e
        rcases makeBox_ok hp.wf hx hp.h hs1 with ⟨b, k1, k2, k3⟩ | ⟨b, _, _, _, k4⟩ | ⟨k1, _, _⟩
        · have := k3.notLast
          have := k3.wpos
          have := hp.wf.w_lt
          rw [k1, Res.ok_bind, if_pos k2, uadd_eq (by omega)] at e
          cases es : i.section b.x b.y b.bounds with
          | ok a =>
            rw [es, Res.ok_bind] at e
            dsimp only at e
            by_cases hf : (s.str []).2.fail = true
            · rw [if_pos hf] at e
              cases e
            · rw [if_neg hf] at e
              cases eg : glyphWrite ⟨a, [⟨(s.str []).1, j.font, maxU⟩]⟩ with
              | ok t =>
                rw [eg] at e
                exact ih _ _ _ (by omega) e
              | _ =>
                rw [eg] at e
                cases e
          | _ =>
            rw [es] at e
            cases e
        · rcases k4 with k4 | k4
          · omega
          · exact k4 hb
        · rw [k1] at e
          cases e
    exact key _ 0 _ _ hp.w e
  · obtain ⟨l, hl, e⟩ := C65_every_line lum j' t i' (by rw [h.text, ht]) h.second hs (.inl h2)
    obtain ⟨r, _, e2⟩ := C65_line lum l hl
    rw [← e, e2]
    by_cases hn : l.words.length = l.boxes.length
    · rw [if_pos hn]; intro h; cases h
    · rw [if_neg hn]; intro h; cases h

/-- One row with a point, and the same with a row below it. -/
example : loadFile 128 ⟨ppm ⟨⟨3, 1⟩, [45, 120, 45]⟩, some (bytes "a"), bytes "f"⟩ = ⟨bytes "1 1 x\n1\na f 4294967295\n", .abort⟩ ∧
    loadFile 128 ⟨ppm (padded 0 0 0 1 ⟨⟨3, 1⟩, [45, 120, 45]⟩), some (bytes "a"), bytes "f"⟩ =
      ⟨bytes "1 1 x\n1\na f 4294967295\n", .ok ()⟩ := by
  constructor <;> decide +kernel

/-- One row with a letter pixel in its last column: rows and a left margin may be added. -/
example : RowsHeld ⟨⟨4, 1⟩, [45, 120, 45, 120]⟩ (padded 2 1 0 1 ⟨⟨4, 1⟩, [45, 120, 45, 120]⟩) ∧
    loadFile 128 ⟨ppm (padded 2 1 0 1 ⟨⟨4, 1⟩, [45, 120, 45, 120]⟩), some (bytes "a"), bytes "f"⟩ =
      loadFile 128 ⟨ppm ⟨⟨4, 1⟩, [45, 120, 45, 120]⟩, some (bytes "a"), bytes "f"⟩ ∧
    (loadFile 128 ⟨ppm ⟨⟨4, 1⟩, [45, 120, 45, 120]⟩, some (bytes "a"), bytes "f"⟩).ended = .ok () := by
  refine ⟨.inr (.inl fun h => absurd (h 0) (by decide)), ?_, ?_⟩ <;> decide +kernel

theorem C79_false : ¬ C79_statement := by
  intro h
  have := h _ _ _ _ _ _ _ C79_last_column.1
  rw [C79_last_column.2.1, C79_last_column.2.2] at this
  exact absurd this (by decide +kernel)

/-- Margins on all sides of a line of three letters, seven columns in front. -/
example : loadFile 128 ⟨ppm (padded 7 3 2 1 blockGap), some (bytes " a ! \na\n"), bytes "font"⟩ = loadFile 128 lesson.job ∧
    (loadFile 128 lesson.job).ended = .ok () := by
  refine ⟨C79_line_partial 128 lesson.job _ 7 3 blockGap (padded 7 3 2 1 blockGap) ⟨rfl, rfl, ?_, ?_, ?_⟩ ⟨?_, ?_, .inr ?_⟩, ?_⟩
  · decide +kernel
  · decide +kernel
  · exact margins_of (by decide) (by decide) (by decide +kernel) (by decide +kernel)
  · exact .inl (by decide)
  · decide
  · intro y
    unfold letter pix
    by_cases hy : y < 2
    · have : y = 0 ∨ y = 1 := by omega
      rcases this with rfl | rfl <;> decide
    · rw [if_neg (by show ¬ (_ ∧ y < 2); omega)]
      rfl
  · decide +kernel

/-- A line with too few words fails in the same place. -/
example : loadFile 128 ⟨ppm (padded 7 3 2 1 blockGap), some (bytes "a"), bytes "font"⟩ =
    loadFile 128 ⟨ppm blockGap, some (bytes "a"), bytes "font"⟩ ∧
    (loadFile 128 ⟨ppm blockGap, some (bytes "a"), bytes "font"⟩).ended = .throw := by
  constructor <;> decide +kernel

end Ppocr.Props

import Verif.Proofs.Margins
import Verif.Props.Learn

/-! # Blank margins around the line (C78) -/

namespace Ppocr.Props
open Ppocr Spec

/-! ### Helper lemma -/

theorem extractText_moved {P : Type} [Dbl P] {left top : Nat} {i i' : Image} (m : Margins left top i i') (wf : i.WF) (wf' : i'.WF)
    (hw : 0 < i.bounds.w) (hp : 0 < i.bounds.h) (hh : RowsHeld i i') (hs' : i'.bounds.w * i'.bounds.h + i'.bounds.w ≤ W32)
    (h4 : i'.bounds.w + 4 < W32)
    (hright : i'.bounds.w = left + i.bounds.w ∨ BlankCol i (i.bounds.w - 1))
    (hleft : ∀ b, CharBox i 0 b → (4 < b.x + left ↔ 4 < b.x))
    (hone : ∀ b, segment i = .ok [b] → ¬ (b.h = 1 ∧ (b.y = 1 ∨ b.y + top = 1)))
    (s : Setup P) (g : RGlyphs) (infos : List WordInfo) (E : List FNode) :
    extractText s g infos E i' = extractText s g infos E i := by
  have hwd := m.wide
  have hhd := m.high
  have hs : i.bounds.w * i.bounds.h + i.bounds.w ≤ W32 := by
    have := Nat.mul_le_mul (show i.bounds.w ≤ i'.bounds.w by omega) (show i.bounds.h ≤ i'.bounds.h by omega)
    omega
  have key := lineLoop_moved m hright wf wf' hp hh hs hs' h4 s g (i.bounds.w + 1) (i'.bounds.w + 1) 0 0 (Line.init P) (by omega)
    (by omega) hw (by omega) (fun c _ h => m.blank_left (by omega)) (fun b hb => by have := hleft b hb; omega)
  have e0 : movedLine left top (Line.init P) = Line.init P := rfl
  rw [e0] at key
  unfold extractText
  rw [key, Res.bind_assoc]
  refine res_bind_congr_ok fun r er => ?_
  obtain ⟨bs, es, eb⟩ := lineLoop_boxes _ _ _ _ er
  have eb' : r.boxes = bs := eb
  rw [Res.ok_bind]
  have ef : filterByLines infos (r.boxes.map (movedBox left top)) r.refs r.st = filterByLines infos r.boxes r.refs r.st := by
    apply filterByLines_margins
    · rw [eb']
      intro b hb
      obtain ⟨x0, hc⟩ : ∃ x0, CharBox i x0 b := by
        rcases segmentFrom_ok wf hp hs (i.bounds.w + 1) 0 hw (by omega) (by omega) with ⟨bs', e1, _, _, h3, _⟩ | ⟨e1, _⟩
        · rw [e1] at es
          cases es
          exact (h3 b hb).2.1
        · rw [e1] at es
          cases es
      have := hc.bottom
      have := hc.notLast
      have := hc.wpos
      refine ⟨hc.hpos, ?_⟩
      have h2 := Nat.mul_le_mul_right i'.bounds.h (show 2 ≤ i'.bounds.w by omega)
      omega
    · intro b hb
      apply hone b
      rw [← hb, eb']
      exact es
  show (filterByLines infos (r.boxes.map (movedBox left top)) r.refs r.st >>= fun st => _) = _
  rw [ef]
  rfl

/-! ### The claim -/

/-- Full statement of **C78**: whatever was learned and whatever the other files hold, blank margins around the line do not
change what the program answers. -/
def C78_statement (P : Type) [Dbl P] (S : StdSort) : Prop :=
  ∀ (f : ProgFiles) (image' : FileEnv) (left top : Nat) (i i' : Image), loadImage f.image 128 = .ok i →
    loadImage image' 128 = .ok i' → Margins left top i i' → program P S { f with image := image' } = program P S f

/-- **C78** when
* the line has two rows or more, or a letter pixel in its last column, or no row is added,
* its last column is blank, or no column is added behind it,
* the left margin does not bring the first letter from the columns 0 to 4 to one behind (which the program takes for a gap),
* a line of one letter only is not one row high and, in one of the two pictures, in the second row.

The answer is the same, be it a text, an error or undefined behaviour. (What is missing: the other lines, for which the
claim is false, see `C78_left`, `C78_last_column`, `C78_point` and `C78_one_row`; pictures of almost 2^32 pixels.) -/
theorem C78_margins_partial {P : Type} [Dbl P] (S : StdSort) (f : ProgFiles) (image' : FileEnv) (left top : Nat) (i i' : Image)
    (hi : loadImage f.image 128 = .ok i) (hi' : loadImage image' 128 = .ok i') (m : Margins left top i i')
    (hh : RowsHeld i i') (hs : i'.bounds.w * i'.bounds.h + i'.bounds.w ≤ W32) (h4 : i'.bounds.w + 4 < W32)
    (hright : i'.bounds.w = left + i.bounds.w ∨ BlankCol i (i.bounds.w - 1))
    (hleft : ∀ b, CharBox i 0 b → (4 < b.x + left ↔ 4 < b.x))
    (hone : ∀ b, segment i = .ok [b] → ¬ (b.h = 1 ∧ (b.y = 1 ∨ b.y + top = 1))) :
    program P S { f with image := image' } = program P S f := by
  unfold program
  dsimp only
  refine res_bind_congr fun E => res_bind_congr fun d => res_bind_congr fun g => ?_
  by_cases hg : g.views.length ≠ d.size
  · rw [if_pos hg, if_pos hg]
  · rw [if_neg hg, if_neg hg]
    refine res_bind_congr fun infos => res_bind_congr fun bw => ?_
    rw [hi, hi', Res.ok_bind, Res.ok_bind]
    exact extractText_moved m (loadImage_picture hi).wf (loadImage_picture hi').wf (loadImage_picture hi).w (loadImage_picture hi).h hh hs h4 hright
      hleft hone _ g infos E

/-- Rows only: on a line of no letter, or of two and more, blank rows above and below never count. -/
theorem C78_rows_partial {P : Type} [Dbl P] (S : StdSort) (f : ProgFiles) (image' : FileEnv) (top : Nat) (i i' : Image)
    (hi : loadImage f.image 128 = .ok i) (hi' : loadImage image' 128 = .ok i') (m : Margins 0 top i i')
    (he : i'.bounds.w = i.bounds.w) (hh : RowsHeld i i') (hs : i'.bounds.w * i'.bounds.h + i'.bounds.w ≤ W32)
    (h4 : i'.bounds.w + 4 < W32) (hone : ∀ b, segment i ≠ .ok [b]) :
    program P S { f with image := image' } = program P S f :=
  C78_margins_partial S f image' 0 top i i' hi hi' m hh hs h4 (.inl (by omega)) (fun b _ => by omega)
    (fun b e => absurd e (hone b))

/-! ### Where it fails -/

/-- The files made from the lesson of `C67`: the block is `a`, the bar `!`. -/
def lessonFiles (image : FileEnv) : ProgFiles :=
  let g := (writeGlyphs 128 [lesson.job]).out
  ⟨some g, match writeDatas (some g) with | .ok r => some r.2 | _ => none, image, none, none⟩

/-- A picture with `l` columns on the left, `r` on the right, `t` rows above, `u` rows below. -/
def padded (l t r u : Nat) (i : Image) : Image :=
  ⟨⟨l + i.bounds.w + r, t + i.bounds.h + u⟩,
    List.replicate (t * (l + i.bounds.w + r)) 45 ++
    ((List.range i.bounds.h).flatMap fun y =>
      List.replicate l 45 ++ (i.data.drop (y * i.bounds.w)).take i.bounds.w ++ List.replicate r 45) ++
    List.replicate (u * (l + i.bounds.w + r)) 45⟩

/-- Margins, cell by cell. -/
theorem margins_of {l t : Nat} {i i' : Image} (h1 : l + i.bounds.w ≤ i'.bounds.w) (h2 : t + i.bounds.h ≤ i'.bounds.h)
    (h3 : ∀ x < i.bounds.w, ∀ y < i.bounds.h, pix i' (x + l) (y + t) = pix i x y)
    (h4 : ∀ x < i'.bounds.w, ∀ y < i'.bounds.h, letter i' x y = true → l ≤ x ∧ x < l + i.bounds.w ∧ t ≤ y ∧ y < t + i.bounds.h) :
    Margins l t i i' where
  wide := h1
  high := h2
  inside x y hx hy := h3 x hx y hy
  outside x y h := by
    by_cases hb : x < i'.bounds.w ∧ y < i'.bounds.h
    · exact h4 x hb.1 y hb.2 h
    · unfold letter pix at h
      rw [if_neg hb] at h
      cases h

/-- **C78** is false: the line `!`, gap, `a!` is read `!a!`; moved five columns to the right it is read `! a!`. -/
theorem C78_left :
    Margins 5 0 barGap (padded 5 0 0 0 barGap) ∧
    program Frac insertionSort (lessonFiles (ppm barGap)) = .ok ⟨[33, 97, 33], 0, 3⟩ ∧
    program Frac insertionSort (lessonFiles (ppm (padded 5 0 0 0 barGap))) = .ok ⟨[33, 32, 97, 33], 0, 3⟩ := by
  refine ⟨margins_of (by decide) (by decide) (by decide +kernel) (by decide +kernel), ?_, ?_⟩ <;> decide +kernel

/-- **C78** is false: the block without a margin is read `!`, with a blank column behind it `a`. -/
theorem C78_last_column :
    Margins 0 0 block (padded 0 0 1 0 block) ∧
    program Frac insertionSort (lessonFiles (ppm block)) = .ok ⟨[33], 0, 1⟩ ∧
    program Frac insertionSort (lessonFiles (ppm (padded 0 0 1 0 block))) = .ok ⟨[97], 0, 1⟩ := by
  refine ⟨margins_of (by decide) (by decide) (by decide +kernel) (by decide +kernel), ?_, ?_⟩ <;> decide +kernel

/-- One point in the first of two rows. -/
def point : Image := ⟨⟨2, 2⟩, [120, 45, 45, 45]⟩

/-- **C78** is false: one point alone is answered in the first row and is undefined behaviour in the second. -/
theorem C78_point :
    Margins 0 1 point (padded 0 1 0 0 point) ∧
    program Frac insertionSort (lessonFiles (ppm point)) = .ok ⟨[], 0, 1⟩ ∧
    program Frac insertionSort (lessonFiles (ppm (padded 0 1 0 0 point))) = .ub := by
  refine ⟨margins_of (by decide) (by decide) (by decide +kernel) (by decide +kernel), ?_, ?_⟩ <;> decide +kernel

/-- **C78** is false: one row fails with an assertion, with a row below it there is an answer. -/
theorem C78_one_row : let dash : Image := ⟨⟨5, 1⟩, [45, 120, 120, 45, 45]⟩
    Margins 0 0 dash (padded 0 0 0 1 dash) ∧
    program Frac insertionSort (lessonFiles (ppm dash)) = .abort ∧
    (program Frac insertionSort (lessonFiles (ppm (padded 0 0 0 1 dash))) ≠ .abort) := by
  refine ⟨margins_of (by decide) (by decide) (by decide +kernel) (by decide +kernel), ?_, ?_⟩ <;> decide +kernel

theorem C78_false : ¬ C78_statement Frac insertionSort := by
  intro h
  have := h (lessonFiles (ppm barGap)) (ppm (padded 5 0 0 0 barGap)) 5 0 barGap (padded 5 0 0 0 barGap) (by decide +kernel)
    (by decide +kernel) C78_left.1
  have e : { lessonFiles (ppm barGap) with image := ppm (padded 5 0 0 0 barGap) } =
    lessonFiles (ppm (padded 5 0 0 0 barGap)) := rfl
  rw [e, C78_left.2.1, C78_left.2.2] at this
  exact absurd this (by decide)

/-- Margins on all four sides. -/
example : Margins 4 3 barGap (padded 4 3 5 2 barGap) ∧
    program Frac insertionSort (lessonFiles (ppm (padded 4 3 5 2 barGap))) =
      program Frac insertionSort (lessonFiles (ppm barGap)) := by
  have m : Margins 4 3 barGap (padded 4 3 5 2 barGap) :=
    margins_of (by decide) (by decide) (by decide +kernel) (by decide +kernel)
  refine ⟨m, ?_⟩
  refine C78_margins_partial insertionSort (lessonFiles (ppm barGap)) (ppm (padded 4 3 5 2 barGap)) 4 3 barGap _
    (by decide +kernel) (by decide +kernel) m (.inl (by decide)) (by decide) (by decide) (.inr ?_) ?_ ?_
  · intro y
    unfold letter pix
    by_cases hy : y < 2
    · have : y = 0 ∨ y = 1 := by omega
      rcases this with rfl | rfl <;> decide
    · rw [if_neg (by show ¬ (_ ∧ y < 2); omega)]
      rfl
  · intro b hb
    have h0 : letter barGap 0 0 = true := by decide
    have : b.x = 0 := by
      apply Decidable.byContradiction
      intro hn
      have := hb.before 0 (by omega) (by omega) 0
      rw [h0] at this
      cases this
    omega
  · intro b hb
    rw [barGap_segment] at hb
    cases hb

/-- Two lines of one letter. -/
example : program Frac insertionSort (lessonFiles (ppm (padded 4 2 2 1 block))) =
    program Frac insertionSort (lessonFiles (ppm (padded 0 0 1 0 block))) ∧
    program Frac insertionSort (lessonFiles (ppm (padded 0 0 1 0 block))) = .ok ⟨[97], 0, 1⟩ := by
  constructor
  · have m : Margins 4 2 (padded 0 0 1 0 block) (padded 4 2 2 1 block) :=
      margins_of (by decide) (by decide) (by decide +kernel) (by decide +kernel)
    refine C78_margins_partial insertionSort (lessonFiles (ppm (padded 0 0 1 0 block))) (ppm (padded 4 2 2 1 block)) 4 2 _ _
      (by decide +kernel) (by decide +kernel) m (.inl (by decide)) (by decide) (by decide) (.inr ?_) ?_ ?_
    · intro y
      unfold letter pix
      by_cases hy : y < 2
      · have : y = 0 ∨ y = 1 := by omega
        rcases this with rfl | rfl <;> decide
      · rw [if_neg (by show ¬ (_ ∧ y < 2); omega)]
        rfl
    · intro b hb
      have h0 : letter (padded 0 0 1 0 block) 0 0 = true := by decide
      have : b.x = 0 := by
        apply Decidable.byContradiction
        intro hn
        have := hb.before 0 (by omega) (by omega) 0
        rw [h0] at this
        cases this
      omega
    · intro b hb
      rw [show segment (padded 0 0 1 0 block) = .ok [⟨0, 0, 2, 2⟩] by decide +kernel] at hb
      cases hb
      decide
  · exact C78_last_column.2.2

end Ppocr.Props

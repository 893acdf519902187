import Verif.Props.Beside
import Verif.Props.Learn
import Verif.Proofs.Parts6

/-! # What `ocr2_extract_text` prints of a line and of its parts (C104) -/

namespace Ppocr.Props
open Ppocr Spec

/-- Full statement of **C104**: a line that is cut at a space is read as its parts are. -/
def C104_statement (P : Type) [Dbl P] (S : StdSort) : Prop :=
  ∀ (lum : Nat) (jobs : List Job) (infos dict : Option TextFile) (ea eb ec : FileEnv) (a b c : Image) (as cs : List Box)
    (ra rb rc : Answer), CutFiles 128 ea eb ec a b c → segment a = .ok as → segment c = .ok cs → Gap cs as.length →
    learnAndRead P S lum jobs ea infos dict = .ok ra → learnAndRead P S lum jobs eb infos dict = .ok rb →
    learnAndRead P S lum jobs ec infos dict = .ok rc →
    rc.text = ra.text ++ [32] ++ rb.text ∧ rc.unrecognized = ra.unrecognized + rb.unrecognized ∧ rc.count = ra.count + rb.count

/-- Two blocks, and behind a space two bars. -/
def partBlocks : Image := ⟨⟨6, 2⟩, let r := [120, 120, 45, 120, 120, 45]; r ++ r⟩

def partBars : Image := ⟨⟨9, 2⟩, let r := [45, 45, 45, 45, 45, 120, 45, 120, 45]; r ++ r⟩

/-- The block was learnt as an `l` of the font `A` and as an `m` of the font `B`, the bar as an `o` of `B`. -/
def partJobs : List Job :=
  [⟨ppm partBlocks, some (bytes "l l"), bytes "A"⟩, ⟨ppm (besides partBlocks partBars), some (bytes "m m o o"), bytes "B"⟩]

/-- The bars decide on the font: `ll` alone is `mm` before them. -/
theorem C104_font : learnAndRead Frac insertionSort 128 partJobs (ppm partBlocks) none none = .ok ⟨bytes "ll", 0, 2⟩ ∧
    learnAndRead Frac insertionSort 128 partJobs (ppm partBars) none none = .ok ⟨bytes "oo", 0, 2⟩ ∧
    learnAndRead Frac insertionSort 128 partJobs (ppm (besides partBlocks partBars)) none none = .ok ⟨bytes "mm oo", 0, 4⟩ := by
  refine ⟨?_, ?_, ?_⟩ <;> decide +kernel

theorem cut_parts : CutUp partBlocks partBars (besides partBlocks partBars) :=
  ⟨⟨part_of (by decide) (by decide) (by decide +kernel), part_of (by decide) (by decide) (by decide +kernel), by decide⟩,
    blank_of (by decide +kernel), by decide, by decide⟩

theorem C104_false : ¬ C104_statement Frac insertionSort := by
  intro h
  obtain ⟨h1, h2, h3⟩ := C104_font
  have := (h 128 partJobs none none (ppm partBlocks) (ppm partBars) (ppm (besides partBlocks partBars)) _ _ _
    [⟨0, 0, 2, 2⟩, ⟨3, 0, 2, 2⟩] [⟨0, 0, 2, 2⟩, ⟨3, 0, 2, 2⟩, ⟨11, 0, 1, 2⟩, ⟨13, 0, 1, 2⟩] _ _ _
    ⟨by decide +kernel, by decide +kernel, by decide +kernel, cut_parts⟩ (by decide +kernel) (by decide +kernel)
    (by decide) h1 h2 h3).1
  revert this
  decide +kernel

/-! ### Helper lemmas -/

theorem spacedFrom_append (p : Nat → Bool) : ∀ (k : Nat) (us vs : List (List Nat)),
    spacedFrom p k (us ++ vs) = spacedFrom p k us ++ spacedFrom p (k + us.length) vs
  | k, [], vs => by simp [spacedFrom]
  | k, u :: us, vs => by
    rw [List.cons_append, spacedFrom, spacedFrom, spacedFrom_append p (k + 1) us vs, List.length_cons,
      show k + 1 + us.length = k + (us.length + 1) by omega]
    simp only [List.append_assoc]

theorem spacedFrom_congr {p q : Nat → Bool} (n : Nat) : ∀ (k : Nat) (us : List (List Nat)),
    (∀ j, k ≤ j → j < k + us.length → p (n + j) = q j) → spacedFrom p (n + k) us = spacedFrom q k us
  | _, [], _ => by simp [spacedFrom]
  | k, u :: us, h => by
    rw [spacedFrom, spacedFrom, h k (Nat.le_refl _) (by simp), Nat.add_assoc,
      spacedFrom_congr n (k + 1) us fun j h1 h2 => h j (by omega) (by rw [List.length_cons]; omega)]

theorem gap_front {as ds : List Box} {k : Nat} (h : k < as.length) : Gap (as ++ ds) k ↔ Gap as k := by
  have e : endBefore (as ++ ds) k = endBefore as k := by
    cases k with
    | zero => rfl
    | succ k => simp only [endBefore]; rw [List.getElem?_append_left (by omega)]
  unfold Gap
  rw [e, List.getElem?_append_left h]

theorem gap_back {as bs : List Box} {n top k : Nat} (h : 0 < k) :
    Gap (as ++ bs.map (movedBox n top)) (as.length + k) ↔ Gap bs k := by
  obtain ⟨k, rfl⟩ : ∃ j, k = j + 1 := ⟨k - 1, by omega⟩
  unfold Gap
  rw [List.getElem?_append_right (by omega), show as.length + (k + 1) - as.length = k + 1 by omega, ← Nat.add_assoc]
  simp only [endBefore]
  rw [List.getElem?_append_right (by omega), show as.length + k - as.length = k by omega, List.getElem?_map, List.getElem?_map]
  cases h1 : bs[k + 1]? with
  | none => simp
  | some b =>
    cases h2 : bs[k]? with
    | none =>
      have := List.getElem?_eq_none_iff.1 h2
      have := (List.getElem?_eq_some_iff.1 h1).1
      omega
    | some b' =>
      simp only [Option.map_some, Option.getD_some, Option.some.injEq]
      constructor
      · rintro ⟨_, rfl, h⟩
        refine ⟨b, rfl, ?_⟩
        have : b'.x + n + b'.w + 4 < b.x + n := h
        omega
      · rintro ⟨_, rfl, h⟩
        refine ⟨_, rfl, ?_⟩
        show b'.x + n + b'.w + 4 < b.x + n
        omega

/-- The text of a line, and those of its parts: the left part is not only punctuation, and the first word of the right part is
not. -/
theorem spacedKept_parts {as bs : List Box} {ta tb : List (List Nat)} {n top : Nat} (hl : ta.length = as.length)
    (ha : ¬ OnlyMarks as ta as.length) (hb : ∀ k, 0 < k → Gap bs k → ¬ OnlyMarks bs tb k) :
    spacedKept (as ++ bs.map (movedBox n top)) (ta ++ tb) = spacedKept as ta ++
      ((if tb ≠ [] ∧ Gap (as ++ bs.map (movedBox n top)) as.length then [32] else []) ++ spacedKept bs tb) := by
  have hpos : 0 < as.length := by
    rcases Nat.eq_zero_or_pos as.length with h | h
    · exact absurd (fun j hj => by omega) ha
    · exact h
  have hmarks : ∀ k, k ≤ as.length → (OnlyMarks (as ++ bs.map (movedBox n top)) (ta ++ tb) k ↔ OnlyMarks as ta k) := by
    intro k hk
    have e : ∀ j < k, ((¬ Gap (as ++ bs.map (movedBox n top)) j ∧ isSep [(ta ++ tb).getD j []] = true) ↔
        (¬ Gap as j ∧ isSep [ta.getD j []] = true)) := by
      intro j hj
      rw [gap_front (by omega), List.getD_eq_getElem?_getD, List.getElem?_append_left (by omega), ← List.getD_eq_getElem?_getD]
    exact ⟨fun h j hj => (e j hj).1 (h j hj), fun h j hj => (e j hj).2 (h j hj)⟩
  have hnot : ∀ k, as.length ≤ k → ¬ OnlyMarks (as ++ bs.map (movedBox n top)) (ta ++ tb) k := by
    intro k hk h
    exact ha ((hmarks _ (Nat.le_refl _)).1 fun j hj => h j (by omega))
  rw [spacedKept_eq hb]
  unfold spacedKept spaced
  rw [spacedFrom_append, Nat.zero_add, hl]
  congr 1
  · have := spacedFrom_congr (p := fun k => decide (0 < k) && decide (Gap (as ++ bs.map (movedBox n top)) k) &&
        !decide (OnlyMarks (as ++ bs.map (movedBox n top)) (ta ++ tb) k))
      (q := fun k => decide (0 < k) && decide (Gap as k) && !decide (OnlyMarks as ta k)) 0 0 ta (by
        intro j _ hj
        simp only [Nat.zero_add]
        rw [decide_eq_decide.2 (gap_front (by omega)), decide_eq_decide.2 (hmarks j (by omega))])
    exact this
  · cases tb with
    | nil => simp [spacedFrom]
    | cons t tb =>
      rw [spacedFrom, spacedFrom]
      rw [spacedFrom_congr (q := fun k => decide (0 < k) && decide (Gap bs k)) as.length 1 tb (by
        intro j h1 _
        have e1 : decide (0 < as.length + j) = true := decide_eq_true (by omega)
        have e2 : decide (0 < j) = true := decide_eq_true (by omega)
        simp only [e1, e2, decide_eq_decide.2 (gap_back (as := as) (n := n) (top := top) (bs := bs) h1),
          decide_eq_false (hnot (as.length + j) (by omega)), Bool.true_and, Bool.not_false, Bool.and_true])]
      simp only [decide_eq_true hpos, decide_eq_false (hnot _ (Nat.le_refl _)), Bool.true_and, Bool.not_false, Bool.and_true,
        decide_eq_true_eq, Nat.lt_irrefl, decide_false, Bool.false_and, ne_eq, List.cons_ne_nil, not_false_eq_true, true_and,
        Bool.false_eq_true, if_false, List.nil_append, List.append_assoc]

section
variable {P : Type} [ScoreDbl P]

/-- **C104** for lines whose letters stand for one word each: the parts and the line are read, what is printed for the line is
what is printed for the parts, with the space of the cut, and the numbers of letters add up. Missing: letters that were learnt
with several words, or not at all. -/
theorem C104_read_partial (S : StdSort) (lum : Nat) (ls : List Lesson) (infos dict : Option TextFile) (ws : List (List Nat))
    (ea eb ec : FileEnv) (a b c : Image) (as bs cs : List Box) (ps qs : List Image) (ta tb : List (List Nat)) (h : Course lum ls)
    (h4 : ∀ p ∈ taught ls, p.2.length % 4 ≠ 0) (hinf : InfoFile ls infos) (hd : DictFile S ws dict)
    (hcut : CutFiles 128 ea eb ec a b c) (hc : LineImage c)
    (ea' : segment a = .ok as) (eb' : segment b = .ok bs) (ec' : segment c = .ok cs)
    (hla : ∀ d ds, as = d :: ds → LowHeld d ds) (hlb : ∀ d ds, bs = d :: ds → LowHeld d ds) (hlc : ∀ d ds, cs = d :: ds → LowHeld d ds)
    (hp : Pictures a as ps) (hq : Pictures b bs qs) (hta : ta.length = ps.length) (htb : tb.length = qs.length)
    (hma : ∀ (k : Nat) p t, ps[k]? = some p → ta[k]? = some t → Stands ls p t)
    (hmb : ∀ (k : Nat) p t, qs[k]? = some p → tb[k]? = some t → Stands ls p t)
    (hone : Uncut ws (ta ++ tb)) (hfa : ¬ OnlyMarks as ta as.length) (hfb : ∀ k, 0 < k → Gap bs k → ¬ OnlyMarks bs tb k) :
    ∃ xa xb, learnAndRead P S lum (ls.map Lesson.job) ea infos dict = .ok ⟨xa, 0, as.length⟩ ∧
      learnAndRead P S lum (ls.map Lesson.job) eb infos dict = .ok ⟨xb, 0, bs.length⟩ ∧
      learnAndRead P S lum (ls.map Lesson.job) ec infos dict =
        .ok ⟨xa ++ ((if Gap cs as.length then [32] else []) ++ xb), 0, as.length + bs.length⟩ := by
  obtain ⟨ia, ib⟩ := hcut.cut.lines (loadImage_picture hcut.first) (loadImage_picture hcut.second) hc
  obtain ⟨as', bs', ps', qs', f1, hp', f2, hq', f3, hpq⟩ := cutFiles_pictures hcut
  rw [ea'] at f1; cases f1
  rw [eb'] at f2; cases f2
  rw [ec'] at f3; cases f3
  have := pictures_unique hp hp'; subst this
  have := pictures_unique hq hq'; subst this
  have hal := pictures_length hp
  have hbl := pictures_length hq
  have r1 := C67_exact_partial (P := P) S lum ls infos dict ws ea a as ps ta h h4 hinf hd hcut.first ia
    (by intro d ds e; rw [ea'] at e; cases e; exact hla d ds rfl) ea' hp hta hma
    (fun r t hr => hone r t (hr.trans (List.infix_append' [] ta tb)))
  have r2 := C67_exact_partial (P := P) S lum ls infos dict ws eb b bs qs tb h h4 hinf hd hcut.second ib
    (by intro d ds e; rw [eb'] at e; cases e; exact hlb d ds rfl) eb' hq htb hmb
    (fun r t hr => hone r t (hr.trans (List.suffix_append ta tb).isInfix))
  have r3 := C67_exact_partial (P := P) S lum ls infos dict ws ec c _ (ps ++ qs) (ta ++ tb) h h4 hinf hd hcut.whole hc
    (by intro d ds e; rw [ec'] at e; exact hlc d ds (Res.ok.inj e)) ec' hpq (by simp [hta, htb])
    (by
      intro k p t h1 h2
      by_cases hk : k < ps.length
      · rw [List.getElem?_append_left hk] at h1
        rw [List.getElem?_append_left (by omega)] at h2
        exact hma k p t h1 h2
      · rw [List.getElem?_append_right (by omega)] at h1
        rw [List.getElem?_append_right (by omega), hta] at h2
        exact hmb _ p t h1 h2) hone
  refine ⟨_, _, r1, r2, ?_⟩
  rw [r3, spacedKept_parts (by omega) hfa hfb, encAll_append, encAll_append, List.length_append, List.length_map]
  congr 4
  by_cases hg : Gap (as ++ bs.map (movedBox a.bounds.w 0)) as.length
  · have hne : tb ≠ [] := by
      rintro rfl
      obtain ⟨d, hd', _⟩ := hg
      have : bs = [] := List.eq_nil_of_length_eq_zero (by simp only [List.length_nil] at htb; omega)
      subst this
      simp at hd'
    rw [if_pos hg, if_pos ⟨hne, hg⟩]
    rfl
  · rw [if_neg hg, if_neg fun h => hg h.2]
    rfl

end

/-! ### Examples -/

/-- With the block learnt as `a` and the bar as `!`. -/
example : learnAndRead Frac insertionSort 128 [lesson.job] (ppm partBlocks) none none = .ok ⟨bytes "aa", 0, 2⟩ ∧
    learnAndRead Frac insertionSort 128 [lesson.job] (ppm partBars) none none = .ok ⟨bytes "!!", 0, 2⟩ ∧
    learnAndRead Frac insertionSort 128 [lesson.job] (ppm (besides partBlocks partBars)) none none = .ok ⟨bytes "aa !!", 0, 4⟩ := by
  refine ⟨?_, ?_, ?_⟩ <;> decide +kernel

/-- Two blocks and five blank columns. -/
def partFront : Image := ⟨⟨11, 2⟩, let r := [120, 120, 45, 120, 120, 45, 45, 45, 45, 45, 45]; r ++ r⟩

/-- Why the first word of the right part must not be only punctuation: its space is lost when it begins the line (C63), and not
when the left part comes before it. -/
theorem C104_marks : CutUp partFront barGap (besides partFront barGap) ∧
    learnAndRead Frac insertionSort 128 [lesson.job] (ppm partFront) none none = .ok ⟨bytes "aa", 0, 2⟩ ∧
    learnAndRead Frac insertionSort 128 [lesson.job] (ppm barGap) none none = .ok ⟨bytes "!a!", 0, 3⟩ ∧
    learnAndRead Frac insertionSort 128 [lesson.job] (ppm (besides partFront barGap)) none none = .ok ⟨bytes "aa ! a!", 0, 5⟩ := by
  refine ⟨⟨⟨part_of (by decide) (by decide) (by decide +kernel), part_of (by decide) (by decide) (by decide +kernel), by decide⟩,
    blank_of (by decide +kernel), by decide, by decide⟩, ?_, ?_, ?_⟩ <;> decide +kernel

end Ppocr.Props

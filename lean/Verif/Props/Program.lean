import Verif.Proofs.Program
import Verif.Proofs.Spaced
import Verif.Props.Setup

/-! # The program from the files it has read to what it prints (C62, C63) -/

namespace Ppocr.Props
open Spec

/-- The program once it has read its files: the check of the tables, then the line. -/
def readLine (P : Type) [Dbl P] (S : StdSort) (g : RGlyphs) (d : Datas) (infos : List WordInfo) (E : List FNode) (i : Image) :
    Res Answer := do
  let bw ← checkTables g.views d
  extractText (setupOf S g.views d bw : Setup P) g infos E i

/-- What the files hold: features of the pictures of the glyphs, glyphs with words in memory, a table of words, a
dictionary. -/
structure Files (S : StdSort) (imgs : List Image) (d : Datas) (g : RGlyphs) (W : Nat → List Nat) (infos : List WordInfo)
    (ws : List (List Nat)) (E : List FNode) : Prop where
  learnt : Learnt imgs d
  letters : ∀ a ∈ imgs, Sized a
  same : g.views.length = imgs.length
  views : [] ∉ g.views
  few : (g.views.map List.length).sum < W32
  known : AllKnown g W g.views
  infos : InfosSorted infos
  dict : DictOf S ws E

/-- The picture of a line of letters, with a blank row or no blank column at the end. -/
structure LineImage (i : Image) : Prop where
  wf : i.WF
  w : 0 < i.bounds.w
  h : 0 < i.bounds.h
  size : 2 * (i.bounds.w * i.bounds.h) + i.bounds.w + 4 < W32
  row : 1 < i.bounds.h ∨ ¬ BlankCol i (i.bounds.w - 1)
  letters : ∀ bs, segment i = .ok bs → ∀ b ∈ bs, Fits b

/-- Every letter of the line can be compared with the learnt pictures. -/
def Compared (imgs : List Image) (views : List (List View)) (i : Image) : Prop :=
  ∀ bs as, segment i = .ok bs → Pictures i bs as → ∀ a ∈ as, Comparable imgs views a

/-- The pictures of a line are letters. -/
theorem LineImage.pictures {i : Image} (h : LineImage i) {bs : List Box} {as : List Image} (e : segment i = .ok bs)
    (hp : Pictures i bs as) : ∀ a ∈ as, Sized a := by
  intro a ha
  have := h.size
  obtain ⟨bs', e', _, hbox, _⟩ := C13_segmentation_partial i h.wf h.w h.h (by omega) h.row
  rw [e] at e'
  cases e'
  obtain ⟨b, hb, hs⟩ := pictures_box hp ha
  obtain ⟨⟨x0, c⟩, _⟩ := hbox b hb
  have c1 := c.right
  have c2 := c.bottom
  obtain ⟨a', e1, wa, hab, _⟩ := C55_section i h.wf b.x b.y b.bounds c.wpos c.hpos (show b.w + b.x ≤ _ by omega)
    (show b.h + b.y ≤ _ by omega)
  rw [hs] at e1
  cases e1
  obtain ⟨f1, f2⟩ := h.letters bs e b hb
  refine ⟨wa, ?_, ?_, ?_, ?_⟩
  · rw [hab]; exact c.wpos
  · rw [hab]; exact c.hpos
  · rw [hab]; exact f1
  · rw [hab]; exact f2

/-- Letters with width and height at most 50 together can be compared. -/
theorem LineImage.compared {i : Image} (h : LineImage i) (imgs : List Image) (views : List (List View))
    (hs : ∀ bs, segment i = .ok bs → ∀ b ∈ bs, b.w + b.h ≤ 50) : Compared imgs views i := by
  intro bs as e hp a ha
  refine comparable_small (h.pictures e hp a ha) ?_
  have := h.size
  obtain ⟨bs', e', _, hbox, _⟩ := C13_segmentation_partial i h.wf h.w h.h (by omega) h.row
  rw [e] at e'
  cases e'
  obtain ⟨b, hb, hsec⟩ := pictures_box hp ha
  obtain ⟨⟨x0, c⟩, _⟩ := hbox b hb
  have c1 := c.right
  have c2 := c.bottom
  obtain ⟨a', e1, _, hab, _⟩ := C55_section i h.wf b.x b.y b.bounds c.wpos c.hpos (show b.w + b.x ≤ _ by omega)
    (show b.h + b.y ≤ _ by omega)
  rw [hsec] at e1
  cases e1
  rw [hab]
  exact hs bs e b hb

/-- **C64**: whatever the lines, `filter_by_lines` adds and moves no candidate, and leaves the letters with one word alone. -/
theorem C64_removes_only (infos : List WordInfo) (bs : List Box) (refs : List Nat) (st st' : List (List View))
    (h : filterByLines infos bs refs st = .ok st') :
    st'.length = st.length ∧ ∀ (r : Nat) (l : List View), st[r]? = some l →
      ∃ l', st'[r]? = some l' ∧ l'.Sublist l ∧ (OneWord l → l' = l) :=
  filterByLines_shrunk h

/-- Three `x` and a digit at the height of a capital: a letter with several words loses some, one with one word does not. -/
example : filterByLines [⟨3, ⟨0, 0, 2, 2⟩⟩, ⟨4, ⟨0, 2, 1, 2⟩⟩, ⟨5, ⟨0, 0, 0, 1⟩⟩]
    [⟨0, 10, 5, 11⟩, ⟨10, 10, 5, 11⟩, ⟨20, 4, 5, 17⟩, ⟨30, 4, 5, 17⟩] [0, 1, 2, 3]
    [[⟨5, 0⟩, ⟨3, 0⟩], [⟨5, 0⟩, ⟨3, 1⟩], [⟨3, 0⟩, ⟨4, 0⟩], [⟨3, 0⟩, ⟨3, 1⟩]] =
    .ok [[⟨3, 0⟩], [⟨3, 1⟩], [⟨4, 0⟩], [⟨3, 0⟩, ⟨3, 1⟩]] := by decide

/-! ### C62 -/

/-- Full statement of **C62**: the program answers on every line; it counts each letter once. -/
def C62_statement (P : Type) [Dbl P] (S : StdSort) : Prop :=
  ∀ (imgs : List Image) (d : Datas) (g : RGlyphs) (W : Nat → List Nat) (infos : List WordInfo) (ws : List (List Nat))
    (E : List FNode) (i : Image), Files S imgs d g W infos ws E → LineImage i →
    ∃ bs ans, segment i = .ok bs ∧ readLine P S g d infos E i = .ok ans ∧ ans.count = bs.length ∧
      ans.unrecognized ≤ ans.count

/-- Two words, `a` and `!`, at 0 and 2; the first stands for the block, the second for the bar. -/
def twoWords : RGlyphs := ⟨[[⟨0, 0⟩], [⟨2, 0⟩]], [some 1, some 0, some 0, some 0, some 97, some 0, none, none,
  some 1, some 0, some 0, some 0, some 33, some 0, none, none], 4⟩

def bar : Image := ⟨⟨1, 2⟩, [120, 120]⟩

def twoText : Nat → List Nat := fun i => if i = 0 then [97] else [33]

/-- Two blocks, the first one row lower. -/
def lowFirst : Image := ⟨⟨6, 3⟩, [45, 45, 45, 120, 120, 45, 120, 120, 45, 120, 120, 45, 120, 120, 45, 45, 45, 45]⟩

/-- Reading a line with the features of the block and the bar. -/
def readTwo (i : Image) : Res Answer := do
  let d ← Datas.empty.loadAll [block, bar]
  let E ← dictOf insertionSort []
  readLine Frac insertionSort twoWords d [] E i

/-- **C62** is false: a line whose first letter is the lowest (C36). -/
theorem C62_low_first : readTwo lowFirst = .ub := by decide +kernel

theorem twoLetters : ∀ i ∈ [block, bar], Sized i := by
  intro i hi
  simp only [List.mem_cons, List.not_mem_nil, or_false] at hi
  rcases hi with rfl | rfl <;> exact sized_small ⟨rfl, by decide, by decide, by decide⟩ (by decide) (by decide) (by decide)

theorem twoKnown : AllKnown twoWords twoText twoWords.views := by
  intro l hl v hv
  simp only [twoWords, List.mem_cons, List.not_mem_nil, or_false] at hl
  rcases hl with rfl | rfl
  all_goals
    rw [List.mem_singleton] at hv
    subst hv
    refine ⟨by decide, ?_, by decide, ⟨by decide, ?_⟩, by unfold Terminated; decide⟩
    · intro c hc
      simp [twoText] at hc
      subst hc
      decide
    · intro k c hk
      cases k with
      | zero => cases hk; decide
      | succ k => simp [twoText, encAll, enc] at hk

theorem twoFiles : ∃ d E, Datas.empty.loadAll [block, bar] = .ok d ∧ dictOf insertionSort [] = .ok E ∧
    Files insertionSort [block, bar] d twoWords twoText [] [] E := by
  obtain ⟨d, e, h⟩ := learnt_loadAll [block, bar] twoLetters
  obtain ⟨E, hE, _⟩ := C40_accepts insertionSort [] (by simp) (by simp) (by decide)
  exact ⟨d, E, e, hE, h, twoLetters, rfl, by decide, by decide, twoKnown, List.Pairwise.nil, by simp, by simp, by decide, hE⟩

theorem lowFirst_line : LineImage lowFirst := by
  refine ⟨⟨rfl, by decide, by decide, by decide⟩, by decide, by decide, by decide, .inl (by decide), ?_⟩
  have e : segment lowFirst = .ok [⟨0, 1, 2, 2⟩, ⟨3, 0, 2, 2⟩] := by decide +kernel
  intro bs h
  rw [e] at h
  cases h
  decide

theorem C62_false : ¬ C62_statement Frac insertionSort := by
  intro h
  obtain ⟨d, E, ed, eE, hf⟩ := twoFiles
  have hw := C62_low_first
  unfold readTwo at hw
  rw [ed, Res.ok_bind, eE, Res.ok_bind] at hw
  obtain ⟨bs, ans, _, e, _⟩ := h _ _ _ _ _ _ _ lowFirst hf lowFirst_line
  rw [hw] at e
  cases e

section
variable {P : Type} [ScoreDbl P]

theorem files_tables {S : StdSort} {imgs : List Image} {d : Datas} {g : RGlyphs} {W : Nat → List Nat}
    {infos : List WordInfo} {ws : List (List Nat)} {E : List FNode} (hf : Files S imgs d g W infos ws E) :
    ∃ bw, dataIndexesByWords g.views = .ok bw ∧ checkTables g.views d = .ok bw := by
  obtain ⟨bw, hb, _⟩ := C33_by_words g.views hf.views
  refine ⟨bw, hb, ?_⟩
  unfold checkTables
  rw [if_neg (by rw [learnt_size hf.learnt, hf.same]; simp), hb]

/-- A line with a letter that cannot be compared with the learnt pictures. -/
theorem readLine_blocked (S : StdSort) (imgs : List Image) (d : Datas) (g : RGlyphs) (W : Nat → List Nat)
    (infos : List WordInfo) (E : List FNode) (i : Image) (hl : Learnt imgs d) (hlet : ∀ a ∈ imgs, Sized a)
    (hsame : g.views.length = imgs.length) (hv : [] ∉ g.views) (hk : AllKnown g W g.views) (hi : LineImage i)
    (hcmp : ¬ Compared imgs g.views i) : readLine P S g d infos E i = .ub := by
  obtain ⟨bw, hb, _⟩ := C33_by_words g.views hv
  have hck : checkTables g.views d = .ok bw := by
    unfold checkTables
    rw [if_neg (by rw [learnt_size hl, hsame]; simp), hb]
  have hg : WordsRead (setupOf S g.views d bw : Setup P) g := by
    intro vs hvs v hv
    have := hk vs hvs v hv
    exact ⟨_, getWord_of this.holds this.small⟩
  unfold readLine
  rw [hck, Res.ok_bind]
  obtain ⟨bs, hcmp⟩ := Classical.not_forall.1 hcmp
  obtain ⟨as, hcmp⟩ := Classical.not_forall.1 hcmp
  obtain ⟨hs, hcmp⟩ := Classical.not_imp.1 hcmp
  obtain ⟨hp, hcmp⟩ := Classical.not_imp.1 hcmp
  obtain ⟨a, hcmp⟩ := Classical.not_forall.1 hcmp
  obtain ⟨ha, hcmp⟩ := Classical.not_imp.1 hcmp
  have hblk : Blocked imgs g.views a := Classical.byContradiction hcmp
  refine extractText_unread (setupOf S g.views d bw : Setup P) g infos E i hi.wf hi.w hi.h hi.size hi.row hg hs hp ?_ ?_
  · intro c hc
    have hla := hi.pictures hs hp c hc
    obtain ⟨r, er, _⟩ := hla.rotate
    refine ⟨r, er, ?_⟩
    by_cases hcb : Blocked imgs g.views c
    · exact .inr (blocked_ub (P := P) S g.views bw hl hlet hsame hb hv hla er hcb)
    · exact .inl ⟨_, _, comparable_ok (P := P) S g.views bw hl hlet hsame hb hv hla er hcb⟩
  · have hla := hi.pictures hs hp a ha
    obtain ⟨r, er, _⟩ := hla.rotate
    exact ⟨a, ha, r, er, blocked_ub (P := P) S g.views bw hl hlet hsame hb hv hla er hblk⟩

/-- **C62**, the lines that are not read: a letter cannot be compared with the learnt pictures (C60), or the first letter has no
cell for its bottom in the buffer of the line filter, or none for its top though it counts for the meanline (C36). -/
theorem C62_undefined (S : StdSort) (imgs : List Image) (d : Datas) (g : RGlyphs) (W : Nat → List Nat)
    (infos : List WordInfo) (ws : List (List Nat)) (E : List FNode) (i : Image) (bw : List (List Nat))
    (hf : Files S imgs d g W infos ws E) (hi : LineImage i) (hck : checkTables g.views d = .ok bw)
    (h : ¬ (Compared imgs g.views i ∧ FirstHeld (setupOf S g.views d bw : Setup P) infos i)) :
    readLine P S g d infos E i = .ub := by
  obtain ⟨bw', hb, hck'⟩ := files_tables hf
  rw [hck] at hck'
  cases hck'
  by_cases hcmp : Compared imgs g.views i
  · unfold readLine
    rw [hck, Res.ok_bind]
    refine extractText_unheld (setupOf S g.views d bw : Setup P) g infos E i hi.wf hi.w hi.h hi.size hi.row ?_ ?_ hf.few hf.infos
      fun hh => h ⟨hcmp, hh⟩
    · intro vs hvs v hv
      have := hf.known vs hvs v hv
      exact ⟨_, getWord_of this.holds this.small⟩
    · intro bs as h1 h2 a ha
      have hla := hi.pictures h1 h2 a ha
      obtain ⟨r, er, _⟩ := hla.rotate
      exact ⟨r, _, _, er, comparable_ok (P := P) S g.views bw hf.learnt hf.letters hf.same hb hf.views hla er (hcmp bs as h1 h2 a ha)⟩
  · exact readLine_blocked S imgs d g W infos E i hf.learnt hf.letters hf.same hf.views hf.known hi hcmp

/-- **C62** for lines of which the first letter has a cell for its bottom in the buffer of the line filter, and one for its top
if it counts for the meanline, and whose letters can be compared with the learnt pictures; missing: other lines
(C36, C60). There is one list of candidates per letter, a selection of what recognition gave for the letter;
a letter recognised as one word keeps it. The lists are those of recognition, shared by the letters with the same picture,
after the line filter and then the font filter. The text is that of C44 for these lists. -/
theorem C62_answer_partial (S : StdSort) (imgs : List Image) (d : Datas) (g : RGlyphs) (W : Nat → List Nat)
    (infos : List WordInfo) (ws : List (List Nat)) (E : List FNode) (i : Image) (hf : Files S imgs d g W infos ws E)
    (hi : LineImage i) (hcmp : Compared imgs g.views i)
    (hsp : ∀ bw, checkTables g.views d = .ok bw → FirstHeld (setupOf S g.views d bw : Setup P) infos i) :
    ∃ (bw : List (List Nat)) (bs : List Box) (as : List Image) (amb : List (List View)) (ans : Answer),
      checkTables g.views d = .ok bw ∧ segment i = .ok bs ∧ Pictures i bs as ∧ as.length = bs.length ∧
      amb.length = bs.length ∧ readLine P S g d infos E i = .ok ans ∧ ans.count = bs.length ∧
      ans.unrecognized ≤ ans.count ∧
      (∀ (k : Nat) a, as[k]? = some a → ∃ v l, candidates (setupOf S g.views d bw : Setup P) a = .ok v ∧ amb[k]? = some l ∧
        l.Sublist v ∧ (OneWord v → v ≠ [] → l ≠ [])) ∧
      (∃ refs st st1 f st2, refs.length = bs.length ∧
        (∀ (k m r q : Nat) (a b : Image), as[k]? = some a → as[m]? = some b → refs[k]? = some r → refs[m]? = some q →
          (r = q ↔ a = b)) ∧
        (∀ (k r : Nat) (a : Image), as[k]? = some a → refs[k]? = some r →
          ∃ v, candidates (setupOf S g.views d bw : Setup P) a = .ok v ∧ st[r]? = some v) ∧
        filterByLines infos bs refs st = .ok st1 ∧ filterByFont refs st1 = .ok (f, st2) ∧
        amb = refs.map fun r => st2.getD r []) ∧
      ∃ (e : Nat) (rest : List Nat) (lead : List (List (List Nat))), gaps bs ++ [bs.length] = e :: rest ∧
        lead = ((amb.map (wordsAt W)).take e).takeWhile isSep ∧
        ans.text = encAll (lead.flatMap firstOf ++ [32].intercalate ((segments (amb.map (wordsAt W)) lead.length
          (if lead.length = e then rest else e :: rest)).map (segText ws))) ∧
        ans.unrecognized = ((amb.drop lead.length).filter (· = [])).length := by
  obtain ⟨bw, hb, _⟩ := C33_by_words g.views hf.views
  have hck : checkTables g.views d = .ok bw := by
    unfold checkTables
    rw [if_neg (by rw [learnt_size hf.learnt, hf.same]; simp), hb]
  obtain ⟨bs, as, amb, ans, e1, hp, hal, hl, hlt, e2, hc, hk, ha, ht, hfil⟩ := extractText_ok (setupOf S g.views d bw : Setup P) g W
    infos E S ws i hi.wf hi.w hi.h hi.size hi.row hf.known
    (by
      intro bs as h1 h2 a ha
      have hla := hi.pictures h1 h2 a ha
      obtain ⟨r, er, _⟩ := hla.rotate
      exact ⟨r, _, _, er, comparable_ok (P := P) S g.views bw hf.learnt hf.letters hf.same hb hf.views hla er (hcmp bs as h1 h2 a ha)⟩)
    hf.few hf.infos hf.dict (hsp bw hck)
  obtain ⟨e, rest, her⟩ : ∃ e rest, gaps bs ++ [bs.length] = e :: rest := by
    cases h : gaps bs ++ [bs.length] with
    | nil => simp at h
    | cons e rest => exact ⟨e, rest, rfl⟩
  obtain ⟨lead, h1, h2⟩ := C44_exact S ws E g W amb e rest hf.dict hk (by rw [hl, ← her]; exact gaps_spaces bs) (by omega)
  rw [her, h2] at ht
  have ht := Res.ok.inj ht
  have ht1 := (Prod.mk.inj ht).1
  have ht2 := (Prod.mk.inj ht).2
  refine ⟨bw, bs, as, amb, ans, hck, e1, hp, hal, hl, ?_, hc, ?_, ?_, hfil, e, rest, lead, her, h1, ht1.symm, ht2.symm⟩
  · unfold readLine
    rw [hck, Res.ok_bind, e2]
  · rw [← ht2, hc, ← hl]
    exact Nat.le_trans (List.length_filter_le _ _) (by rw [List.length_drop]; omega)
  · intro k a h
    obtain ⟨v, l, h1, h2, h3⟩ := ha k a h
    exact ⟨v, l, h1, h2, h3.sub, h3.one⟩

/-- **C62**, exactly the lines that are read: every letter can be compared with the learnt pictures, and the first one has the
cells it needs in the buffer of the line filter. All other lines are undefined. -/
theorem C62_exact (S : StdSort) (imgs : List Image) (d : Datas) (g : RGlyphs) (W : Nat → List Nat)
    (infos : List WordInfo) (ws : List (List Nat)) (E : List FNode) (i : Image) (hf : Files S imgs d g W infos ws E)
    (hi : LineImage i) :
    ∃ bw, checkTables g.views d = .ok bw ∧
      ((Compared imgs g.views i ∧ FirstHeld (setupOf S g.views d bw : Setup P) infos i) →
        ∃ ans, readLine P S g d infos E i = .ok ans) ∧
      (¬ (Compared imgs g.views i ∧ FirstHeld (setupOf S g.views d bw : Setup P) infos i) →
        readLine P S g d infos E i = .ub) := by
  obtain ⟨bw, _, hck⟩ := files_tables hf
  refine ⟨bw, hck, ?_, C62_undefined S imgs d g W infos ws E i bw hf hi hck⟩
  rintro ⟨h1, h2⟩
  obtain ⟨_, _, _, _, ans, _, _, _, _, _, e, _⟩ := C62_answer_partial (P := P) S imgs d g W infos ws E i hf hi h1 (by
    intro bw' hck'
    rw [hck] at hck'
    cases hck'
    exact h2)
  exact ⟨ans, e⟩

/-- The block in front of a bar that is twice as high. -/
def highBar : Image := ⟨⟨5, 4⟩, [45, 45, 45, 120, 45, 45, 45, 45, 120, 45, 120, 120, 45, 120, 45, 120, 120, 45, 120, 45]⟩

/-- Reading a line when the block was learnt for both words, one on both lines if `mean`, the other one above the baseline. -/
def readSame (mean : Nat) (i : Image) : Res Answer := do
  let d ← Datas.empty.loadAll [block, block]
  let E ← dictOf insertionSort []
  readLine Frac insertionSort twoWords d [⟨0, ⟨0, 0, 0, 1⟩⟩, ⟨2, ⟨0, 0, mean, 2⟩⟩] E i

/-- The block, learnt for two words, counts for the meanline if the second one is on both lines, and has no cell for its top: the
line is undefined. It is read when that word is not on the meanline. -/
example : readSame 2 highBar = .ub ∧ readSame 0 highBar = .ok ⟨[33], 0, 2⟩ ∧
    segment highBar = .ok [⟨0, 2, 2, 2⟩, ⟨3, 0, 1, 4⟩] ∧
    LowHeld ⟨0, 2, 2, 2⟩ [⟨3, 0, 1, 4⟩] ∧ ¬ TopHeld ⟨0, 2, 2, 2⟩ [⟨3, 0, 1, 4⟩] := by
  refine ⟨by decide +kernel, by decide +kernel, by decide +kernel, .inr (by decide), ?_⟩
  rintro (⟨h, _⟩ | h)
  · exact absurd h (by simp)
  · exact absurd h (by decide)

/-- A first letter recognised as one word does not count for the meanline. -/
theorem oneWord_counts {infos : List WordInfo} {b : Box} {bs : List Box} {v : List View} (h : OneWord v) :
    ¬ CountsMean infos b bs v := by
  rintro ⟨_, _, _, _, h2, h3⟩
  exact h3 (meanTop_oneWord h h2)

/-- A line of which the first letter has no cell for its bottom is not read, whatever its letters are. -/
theorem C62_low (S : StdSort) (imgs : List Image) (d : Datas) (g : RGlyphs) (W : Nat → List Nat)
    (infos : List WordInfo) (ws : List (List Nat)) (E : List FNode) (i : Image) (hf : Files S imgs d g W infos ws E)
    (hi : LineImage i) (b : Box) (bs : List Box) (hs : segment i = .ok (b :: bs))
    (hlow : ¬ LowHeld b bs) : readLine P S g d infos E i = .ub := by
  obtain ⟨bw, hck, hok, hub⟩ := C62_exact (P := P) S imgs d g W infos ws E i hf hi
  refine hub ?_
  rintro ⟨h1, h2⟩
  obtain ⟨bw', bs', as, amb, ans, _, e1, hp, hal, _⟩ := C62_answer_partial (P := P) S imgs d g W infos ws E i hf hi h1 (by
    intro bw' hck'
    rw [hck] at hck'
    cases hck'
    exact h2)
  rw [hs] at e1
  cases e1
  cases as with
  | nil => simp at hal
  | cons a as => exact hlow (h2 b bs a as hs hp).1

end

/-! ### C63 -/

/-- Full statement of **C63**: a line of letters that all mean one word each is read as these words, with a space at each
gap, and nothing is counted as not recognised. -/
def C63_statement (P : Type) [Dbl P] (S : StdSort) : Prop :=
  ∀ (imgs : List Image) (d : Datas) (g : RGlyphs) (W : Nat → List Nat) (infos : List WordInfo) (ws : List (List Nat))
    (E : List FNode) (i : Image) (bs : List Box) (as : List Image) (ids : List Nat), Files S imgs d g W infos ws E →
    LineImage i → segment i = .ok bs → Pictures i bs as →
    ids.length = as.length → (∀ (k : Nat) a id, as[k]? = some a → ids[k]? = some id → Means imgs g.views a id) →
    readLine P S g d infos E i = .ok ⟨encAll (spaced bs (ids.map W)), 0, bs.length⟩

/-- The bar, a gap, the block and the bar. -/
def barGap : Image := ⟨⟨11, 2⟩, [120, 45, 45, 45, 45, 45, 120, 120, 45, 120, 45, 120, 45, 45, 45, 45, 45, 120, 120, 45, 120, 45]⟩

/-- The block, the bar, a gap and the block. -/
def blockGap : Image :=
  ⟨⟨12, 2⟩, [120, 120, 45, 120, 45, 45, 45, 45, 45, 120, 120, 45, 120, 120, 45, 120, 45, 45, 45, 45, 45, 120, 120, 45]⟩

theorem barGap_segment : segment barGap = .ok [⟨0, 0, 1, 2⟩, ⟨6, 0, 2, 2⟩, ⟨9, 0, 1, 2⟩] := by decide +kernel

/-- **C63** is false: the space behind a first word of punctuation is lost, `! a!` is read as `!a!` (C44). -/
theorem C63_space_lost : readTwo barGap = .ok ⟨[33, 97, 33], 0, 3⟩ := by decide +kernel

theorem barGap_line : LineImage barGap := by
  refine ⟨⟨rfl, by decide, by decide, by decide⟩, by decide, by decide, by decide, .inl (by decide), ?_⟩
  intro bs h
  rw [barGap_segment] at h
  cases h
  decide

/-- The block and the bar are not alike. -/
theorem block_bar : ¬ Alike block bar ∧ ¬ Alike bar block := by
  have h1 : block.rotate90 = .ok block := by decide
  have h2 : bar.rotate90 = .ok ⟨⟨2, 1⟩, [120, 120]⟩ := by decide
  have h3 : feature (.proportionality, .img) block block = .ok (.num 50) := by decide +kernel
  have h4 : feature (.proportionality, .img) bar ⟨⟨2, 1⟩, [120, 120]⟩ = .ok (.num 33) := by decide +kernel
  constructor
  all_goals
    intro h
    obtain ⟨ra, rb, x, y, e1, e2, e3, e4, e5⟩ := h (.proportionality, .img) (by decide)
    rw [h1] at *
    rw [h2] at *
    cases e1
    cases e2
    rw [h3] at *
    rw [h4] at *
    cases e3
    cases e4
    exact absurd e5 (by decide)

theorem twoMeans : Means [block, bar] twoWords.views block 0 ∧ Means [block, bar] twoWords.views bar 2 := by
  obtain ⟨n1, n2⟩ := block_bar
  have a1 := alike_refl (twoLetters block (by simp))
  have a2 := alike_refl (twoLetters bar (by simp))
  refine ⟨⟨⟨0, block, rfl, a1⟩, ?_⟩, ⟨⟨1, bar, rfl, a2⟩, ?_⟩⟩
  all_goals
    rintro g l ⟨i, hi, ha⟩ hl v hv
    rcases g with _ | _ | g
    · simp only [List.getElem?_cons_zero, Option.some.injEq] at hi
      subst hi
      simp only [twoWords, List.getElem?_cons_zero, Option.some.injEq] at hl
      subst hl
      rw [List.mem_singleton] at hv
      subst hv
      first | rfl | exact absurd ha n1
    · simp only [Nat.zero_add, List.getElem?_cons_succ, List.getElem?_cons_zero, Option.some.injEq] at hi
      subst hi
      simp only [twoWords, Nat.zero_add, List.getElem?_cons_succ, List.getElem?_cons_zero, Option.some.injEq] at hl
      subst hl
      rw [List.mem_singleton] at hv
      subst hv
      first | rfl | exact absurd ha n2
    · simp at hi

theorem C63_false : ¬ C63_statement Frac insertionSort := by
  intro h
  obtain ⟨d, E, ed, eE, hf⟩ := twoFiles
  have hw := C63_space_lost
  unfold readTwo at hw
  rw [ed, Res.ok_bind, eE, Res.ok_bind] at hw
  have := h _ _ _ _ _ _ _ barGap [⟨0, 0, 1, 2⟩, ⟨6, 0, 2, 2⟩, ⟨9, 0, 1, 2⟩] [bar, block, bar] [2, 0, 2] hf barGap_line
    barGap_segment ⟨by decide, by decide, by decide, trivial⟩ rfl
    (by
      intro k a id ha hid
      rcases k with _ | _ | _ | k
      · cases ha; cases hid; exact twoMeans.2
      · cases ha; cases hid; exact twoMeans.1
      · cases ha; cases hid; exact twoMeans.2
      · simp at ha)
  rw [hw] at this
  exact absurd this (by decide)

theorem means_compared {imgs : List Image} {views : List (List View)} {i : Image} {bs : List Box} {as : List Image}
    {ids : List Nat} (hs : segment i = .ok bs) (hp : Pictures i bs as) (hids : ids.length = as.length)
    (hm : ∀ (k : Nat) a id, as[k]? = some a → ids[k]? = some id → Means imgs views a id) : Compared imgs views i := by
  intro bs' as' e1 e2 a ha
  rw [hs] at e1
  cases e1
  have := pictures_unique hp e2
  subst this
  obtain ⟨k, hk, rfl⟩ := List.mem_iff_getElem.1 ha
  obtain ⟨g, hg⟩ := (hm k _ _ (List.getElem?_eq_getElem hk) (List.getElem?_eq_getElem (by omega))).1
  exact comparable_alike hg

section
variable {P : Type} [ScoreDbl P]

/-- What is read on every such line: all spaces but the one behind a first word that is only punctuation. -/
theorem C63_exact_partial (S : StdSort) (imgs : List Image) (d : Datas) (g : RGlyphs) (W : Nat → List Nat)
    (infos : List WordInfo) (ws : List (List Nat)) (E : List FNode) (i : Image) (bs : List Box) (as : List Image)
    (ids : List Nat) (hf : Files S imgs d g W infos ws E) (hi : LineImage i)
    (hsp : ∀ b bs, segment i = .ok (b :: bs) → LowHeld b bs) (hs : segment i = .ok bs) (hp : Pictures i bs as)
    (hids : ids.length = as.length)
    (hm : ∀ (k : Nat) a id, as[k]? = some a → ids[k]? = some id → Means imgs g.views a id)
    (hone : Uncut ws (ids.map W)) :
    readLine P S g d infos E i = .ok ⟨encAll (spacedKept bs (ids.map W)), 0, bs.length⟩ := by
  obtain ⟨bw, bs', as', amb, ans, hck, e1, hp', hal, hl, e2, hc, _, hamb, _, e, rest, lead, her, hlead, htext, hun⟩ :=
    C62_answer_partial (P := P) S imgs d g W infos ws E i hf hi (means_compared hs hp hids hm) (by
      intro bw hck b' bs' a' as' e1 e2
      refine ⟨hsp b' bs' e1, .inr fun v hv => oneWord_counts ?_⟩
      rw [hs] at e1
      cases e1
      have := pictures_unique hp e2
      subst this
      have h0 : 0 < ids.length := by rw [hids]; simp
      obtain ⟨⟨g0, hg0⟩, hall⟩ := hm 0 a' _ rfl (List.getElem?_eq_getElem h0)
      obtain ⟨bw', vs, h1, h2, h3, h4⟩ := C61_alike_partial (P := P) S imgs g.views d a' g0 hf.letters
        (hi.pictures hs hp a' List.mem_cons_self) hf.same hf.views hf.learnt hg0
      rw [hck] at h1
      cases h1
      rw [hv] at h2
      cases h2
      intro x hx y hy
      obtain ⟨q, l, hq, hl, hv'⟩ := h4 x hx
      obtain ⟨q', l', hq', hl', hv''⟩ := h4 y hy
      rw [hall q l hq hl x hv', hall q' l' hq' hl' y hv''])
  rw [hs] at e1
  cases e1
  have := pictures_unique hp hp'
  subst this
  have hletters := hi.pictures hs hp
  -- every list has candidates, all of them of the word of the letter
  have hword : ∀ (k : Nat) l id, amb[k]? = some l → ids[k]? = some id → l ≠ [] ∧ ∀ v ∈ l, v.word = id := by
    intro k l id hkl hid
    have hlt : k < as.length := by
      rw [hal, ← hl]; exact (List.getElem?_eq_some_iff.1 hkl).1
    have hka := List.getElem?_eq_getElem hlt
    obtain ⟨⟨g0, hg0⟩, hall⟩ := hm k _ id hka hid
    obtain ⟨bw', vs, h1, h2, h3, h4⟩ := C61_alike_partial (P := P) S imgs g.views d as[k] g0 hf.letters
      (hletters _ (List.getElem_mem hlt)) hf.same hf.views hf.learnt hg0
    rw [hck] at h1
    cases h1
    obtain ⟨v, l', h5, h6, h7, h8⟩ := hamb k _ hka
    rw [h2] at h5
    cases h5
    rw [hkl] at h6
    cases h6
    have hvs : ∀ v ∈ vs, v.word = id := by
      intro v hv
      obtain ⟨q, l'', hq, hl'', hv'⟩ := h4 v hv
      exact hall q l'' hq hl'' v hv'
    exact ⟨h8 (fun u hu v hv => by rw [hvs u hu, hvs v hv]) h3, fun v hv => hvs v (h7.subset hv)⟩
  have hlen : ids.length = amb.length := by rw [hids, hal, hl]
  have hfirst : ∀ (k : Nat) l id, amb[k]? = some l → ids[k]? = some id →
      Sure (wordsAt W l) ∧ firstOf (wordsAt W l) = W id := by
    intro k l id hkl hid
    obtain ⟨h1, h2⟩ := hword k l id hkl hid
    have h3 : firstOf (wordsAt W l) = W id := by
      cases l with
      | nil => exact absurd rfl h1
      | cons v l => show W v.word = _; rw [h2 v List.mem_cons_self]
    refine ⟨⟨by simpa [wordsAt] using h1, ?_⟩, h3⟩
    intro w hw
    obtain ⟨v, hv, rfl⟩ := List.mem_map.1 hw
    rw [h3, h2 v hv]
  have hmap : (amb.map (wordsAt W)).map firstOf = ids.map W := by
    refine List.ext_getElem (by simp [hlen]) ?_
    intro k h1 h2
    simp only [List.length_map] at h1 h2
    rw [List.getElem_map, List.getElem_map, List.getElem_map]
    exact (hfirst k _ _ (List.getElem?_eq_getElem h1) (List.getElem?_eq_getElem h2)).2
  have hsure : ∀ l ∈ amb.map (wordsAt W), Sure l := by
    intro l h
    obtain ⟨m, hm, rfl⟩ := List.mem_map.1 h
    obtain ⟨k, hk, rfl⟩ := List.mem_iff_getElem.1 hm
    exact (hfirst k _ _ (List.getElem?_eq_getElem hk) (List.getElem?_eq_getElem (by omega))).1
  have hone' : Uncut ws ((amb.map (wordsAt W)).map firstOf) := by rw [hmap]; exact hone
  have hkept := joinSure_lead (amb.map (wordsAt W)) bs (by simp [hl]) hsure e rest her
  rw [← hlead, ← joinSure_of hsure hone', hmap] at hkept
  rw [hkept] at htext
  have hz : ans.unrecognized = 0 := by
    rw [hun, List.length_eq_zero_iff, List.filter_eq_nil_iff]
    intro l hld
    obtain ⟨k, hk, rfl⟩ := List.mem_iff_getElem.1 (List.mem_of_mem_drop hld)
    simpa using (hword k _ _ (List.getElem?_eq_getElem hk) (List.getElem?_eq_getElem (by omega))).1
  rw [e2, ← htext, ← hz, ← hc]

/-- **C63**, exactly the lines that are read: those of which the first letter has a cell for its bottom. -/
theorem C63_held (S : StdSort) (imgs : List Image) (d : Datas) (g : RGlyphs) (W : Nat → List Nat)
    (infos : List WordInfo) (ws : List (List Nat)) (E : List FNode) (i : Image) (b : Box) (bs : List Box) (as : List Image)
    (ids : List Nat) (hf : Files S imgs d g W infos ws E) (hi : LineImage i) (hs : segment i = .ok (b :: bs))
    (hp : Pictures i (b :: bs) as) (hids : ids.length = as.length)
    (hm : ∀ (k : Nat) a id, as[k]? = some a → ids[k]? = some id → Means imgs g.views a id)
    (hone : Uncut ws (ids.map W)) :
    (LowHeld b bs → readLine P S g d infos E i = .ok ⟨encAll (spacedKept (b :: bs) (ids.map W)), 0, bs.length + 1⟩) ∧
    (¬ LowHeld b bs → readLine P S g d infos E i = .ub) := by
  refine ⟨fun h => ?_, fun h => C62_low S imgs d g W infos ws E i hf hi b bs hs h⟩
  rw [C63_exact_partial S imgs d g W infos ws E i (b :: bs) as ids hf hi (by
    intro b' bs' e
    rw [hs] at e
    cases e
    exact h) hs hp hids hm hone]
  rfl

theorem spacedKept_eq {bs : List Box} {ts : List (List Nat)} (h : ∀ k, 0 < k → Gap bs k → ¬ OnlyMarks bs ts k) :
    spacedKept bs ts = spaced bs ts := by
  unfold spacedKept spaced
  congr 1
  funext k
  by_cases h0 : 0 < k
  · by_cases hg : Gap bs k
    · simp [h0, hg, h k h0 hg]
    · simp [hg]
  · simp [h0]

/-- **C63** for lines whose first word is not only punctuation, or that have no gap, or one before the first letter;
missing: the other lines, and those of C62. -/
theorem C63_read_partial (S : StdSort) (imgs : List Image) (d : Datas) (g : RGlyphs) (W : Nat → List Nat)
    (infos : List WordInfo) (ws : List (List Nat)) (E : List FNode) (i : Image) (bs : List Box) (as : List Image)
    (ids : List Nat) (hf : Files S imgs d g W infos ws E) (hi : LineImage i)
    (hsp : ∀ b bs, segment i = .ok (b :: bs) → LowHeld b bs) (hs : segment i = .ok bs) (hp : Pictures i bs as)
    (hids : ids.length = as.length)
    (hm : ∀ (k : Nat) a id, as[k]? = some a → ids[k]? = some id → Means imgs g.views a id)
    (hone : Uncut ws (ids.map W))
    (hfirst : ∀ k, 0 < k → Gap bs k → ¬ OnlyMarks bs (ids.map W) k) :
    readLine P S g d infos E i = .ok ⟨encAll (spaced bs (ids.map W)), 0, bs.length⟩ := by
  rw [C63_exact_partial S imgs d g W infos ws E i bs as ids hf hi hsp hs hp hids hm hone, spacedKept_eq hfirst]

end

/-- The block alone below a blank row. -/
def oneBlock : Image := ⟨⟨3, 3⟩, [45, 45, 45, 120, 120, 45, 120, 120, 45]⟩

/-- A line of one letter is read (given 16 GiB for the buffer of the line filter, C36). -/
theorem C63_one_letter : readTwo oneBlock = .ok ⟨[97], 0, 1⟩ := by
  obtain ⟨d, E, ed, eE, hf⟩ := twoFiles
  have hs : segment oneBlock = .ok [⟨0, 1, 2, 2⟩] := by decide +kernel
  have hi : LineImage oneBlock := by
    refine ⟨⟨rfl, by decide, by decide, by decide⟩, by decide, by decide, by decide, .inl (by decide), ?_⟩
    intro bs h
    rw [hs] at h
    cases h
    decide
  unfold readTwo
  rw [ed, Res.ok_bind, eE, Res.ok_bind]
  have := (C63_held (P := Frac) _ _ _ _ _ _ _ _ oneBlock ⟨0, 1, 2, 2⟩ [] [block] [0] hf hi hs ⟨by decide, trivial⟩ rfl
    (by
      intro k a id ha hid
      rcases k with _ | k
      · cases ha; cases hid; exact twoMeans.1
      · simp at ha) (uncut_nil _)).1 (.inl ⟨rfl, by decide⟩)
  rw [this]
  decide

/-- The same two pictures, the block with the word `ab`. -/
def cutWords : RGlyphs := ⟨[[⟨0, 0⟩], [⟨2, 0⟩]], [some 2, some 0, some 0, some 0, some 97, some 98, some 0, none,
  some 1, some 0, some 0, some 0, some 33, some 0, none, none], 4⟩

/-- Reading a line with these words and a dictionary. -/
def readCut (ws : List (List Nat)) (i : Image) : Res Answer := do
  let d ← Datas.empty.loadAll [block, bar]
  let E ← dictOf insertionSort ws
  readLine Frac insertionSort cutWords d [] E i

/-- **C63**, why the dictionary must not cut a text: with the word `aba` in it, two blocks `abab` are read as `aba`; not so
with the words `ab` and `abab`. -/
theorem C63_cut : readCut [[97, 98, 97]] ⟨⟨6, 2⟩, [120, 120, 45, 120, 120, 45, 120, 120, 45, 120, 120, 45]⟩ =
      .ok ⟨[97, 98, 97], 0, 2⟩ ∧
    readCut [[97, 98], [97, 98, 97, 98]] ⟨⟨6, 2⟩, [120, 120, 45, 120, 120, 45, 120, 120, 45, 120, 120, 45]⟩ =
      .ok ⟨[97, 98, 97, 98], 0, 2⟩ := by decide +kernel

/-- `a! a` is read as it should. -/
example : readTwo blockGap = .ok ⟨[97, 33, 32, 97], 0, 3⟩ := by decide +kernel

end Ppocr.Props

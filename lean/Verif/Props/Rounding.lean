import Verif.Proofs.Rounding
import Verif.Props.SortFree

/-! # The recognised text and the rounding of `double` (C96) -/

namespace Ppocr.Props
open Ppocr Spec

set_option exponentiation.threshold 2000

/-- Full statement of **C96**: the program answers what it would answer if it computed the probabilities exactly. -/
def C96_statement : Prop := ∀ (S : StdSort) (f : ProgFiles), program Double S f = program Frac S f

/-- Two glyphs, that differ by one pixel, learnt as `a` and `b`. -/
def tieText : List Nat := bytes "5 5 -x---xxxxxx-xxxx--xxxx-xx\n1\na f 0\n5 5 -x---xxxxxxxxxxx--xxxx-xx\n1\nb f 0\n"

/-- The features of the two glyphs as `write_datas` computes them. -/
def tieDatas : List Nat :=
  match writeDatas (some tieText) with
  | .ok r => r.2
  | _ => []

/-- A picture of neither. -/
def tieLine : Image :=
  ⟨⟨6, 5⟩, [45, 120, 45, 45, 45, 45, 45, 120, 120, 120, 120, 45, 120, 120, 120, 120, 120, 45, 120, 45, 120, 120, 120, 45,
    120, 120, 120, 45, 120, 45]⟩

def tieFiles : ProgFiles := ⟨some tieText, some tieDatas, ppm tieLine, none, none⟩

/-- The glyphs are as `normalize_glyphs` leaves them, and learning works. -/
theorem C96_tie_files : normalizeMain insertionSort [some tieText] = .ok (0, tieText) ∧
    writeDatas (some tieText) = .ok (0, tieDatas) := by
  constructor <;> decide +kernel

/-- The two glyphs match equally well, by the same percentages in different orders; the products of `double` differ. -/
theorem C96_tie : program Frac insertionSort tieFiles = .ok ⟨[97], 0, 1⟩ ∧
    program Double insertionSort tieFiles = .ok ⟨[98], 0, 1⟩ := by
  constructor <;> decide +kernel

theorem C96_false : ¬ C96_statement := by
  intro h
  have := h insertionSort tieFiles
  rw [C96_tie.1, C96_tie.2] at this
  exact absurd this (by decide)

theorem alikeTables (S S' : StdSort) (glyphs : List (List View)) (d : Datas) (bw : List (List Nat)) :
    AlikeTables (setupOf S glyphs d bw : Setup Double) (setupOf S' glyphs d bw : Setup Frac) glyphs.length :=
  ⟨rfl, rfl, rfl, rfl, rfl, rfl, by simp [setupOf, complexStrats], rfl, rfl,
    fun i j hi hj => viewsIndexes_classes S S' glyphs i j hi hj⟩

/-- The bound of C96_error from the bounds on the roundings. -/
theorem parts47 {X Y A B C : Nat} (c1 : C * 2 ^ 47 < B * (2 ^ 47 + 1)) (c2 : B * (2 ^ 47 - 1) < A * 2 ^ 47) (hB : 0 < B) (hX : 0 < X)
    (h1 : X * B ≤ Y * C) (h2 : Y * A ≤ X * B) : X * 2 ^ 47 < Y * (2 ^ 47 + 1) ∧ Y * (2 ^ 47 - 1) < X * 2 ^ 47 := by
  have hY : 0 < Y := by
    rcases Nat.eq_zero_or_pos Y with h | h
    · rw [h, Nat.zero_mul] at h1
      have := Nat.mul_pos hX hB
      omega
    · exact h
  constructor
  · apply Nat.lt_of_mul_lt_mul_left (a := B)
    calc B * (X * 2 ^ 47) = X * B * 2 ^ 47 := by ac_rfl
      _ ≤ Y * C * 2 ^ 47 := Nat.mul_le_mul_right _ h1
      _ = Y * (C * 2 ^ 47) := Nat.mul_assoc _ _ _
      _ < Y * (B * (2 ^ 47 + 1)) := Nat.mul_lt_mul_of_pos_left c1 hY
      _ = B * (Y * (2 ^ 47 + 1)) := by ac_rfl
  · apply Nat.lt_of_mul_lt_mul_left (a := B)
    calc B * (Y * (2 ^ 47 - 1)) = Y * (B * (2 ^ 47 - 1)) := by ac_rfl
      _ < Y * (A * 2 ^ 47) := Nat.mul_lt_mul_of_pos_left c2 hY
      _ = Y * A * 2 ^ 47 := (Nat.mul_assoc _ _ _).symm
      _ ≤ X * B * 2 ^ 47 := Nat.mul_le_mul_right _ h2
      _ = B * (X * 2 ^ 47) := by ac_rfl

/-- **C96**, the probabilities: what is computed for a glyph left at the end, in units of 2^-1074, differs from the product of the 23
percentages by less than one part in 2^47. -/
theorem C96_error (S : StdSort) (imgs : List Image) (glyphs : List (List View)) (d : Datas) (bw : List (List Nat)) (a r : Image)
    (hi : ∀ i ∈ imgs, Sized i) (ha : Sized a) (hc : Comparable imgs glyphs a) (hn : glyphs.length = imgs.length) (he : [] ∉ glyphs)
    (hl : Learnt imgs d) (hb : checkTables glyphs d = .ok bw) (hr : a.rotate90 = .ok r) (g : Nat)
    (hg : Left (setupOf S glyphs d bw : Setup Double) a r g) :
    let s : Setup Double := setupOf S glyphs d bw
    (percents s a r g).length = 23 ∧ (∀ c ∈ percents s a r g, 50 ≤ c ∧ c ≤ 100) ∧
      (fullProb s a r g).n * 100 ^ 23 * 2 ^ 47 < chance s a r g * 2 ^ 1074 * (2 ^ 47 + 1) ∧
      chance s a r g * 2 ^ 1074 * (2 ^ 47 - 1) < (fullProb s a r g).n * 100 ^ 23 * 2 ^ 47 := by
  intro s
  have hb' : dataIndexesByWords glyphs = .ok bw := by
    unfold checkTables at hb
    rwa [if_neg (by rw [learnt_size hl, hn]; simp)] at hb
  have ok : SetupOk s (valOf a r) imgs.length a r := comparable_ok S glyphs bw hl hi hn hb' he ha hr hc
  have hlen : (percents s a r g).length = 23 := by
    unfold percents simplePercents
    simp [s, setupOf, otherStrats, simpleStrats, complexStrats]
  have hin := percents_in ok hg
  refine ⟨hlen, hin, ?_⟩
  have hne : percents s a r g ≠ [] := by
    intro h
    rw [h] at hlen
    cases hlen
  obtain ⟨⟨h1, h2⟩, k, hk, hbig⟩ := product_rounded hin hne (by rw [hlen]; omega)
  rw [← fullProb_product] at h1 h2 hbig
  rw [hlen] at h1 h2
  have hpos : 0 < (fullProb s a r g).n := Nat.lt_of_lt_of_le (Nat.pow_pos (by omega)) hbig
  have e1 : (2 : Nat) ^ 1074 = unit1 := rfl
  rw [e1]
  have hc : (percents s a r g).foldl (· * ·) 1 = chance s a r g := rfl
  rw [hc] at h1 h2
  have hx : 0 < (fullProb s a r g).n * 100 ^ 23 := Nat.mul_pos hpos (Nat.pow_pos (by omega))
  exact parts47 (by decide +kernel) (by decide +kernel) (Nat.pow_pos (by decide)) hx h1 h2

/-- The tables of the program have 23 strategies that count. -/
theorem strategies_few (S : StdSort) (glyphs : List (List View)) (d : Datas) (bw : List (List Nat)) :
    1 + (setupOf S glyphs d bw : Setup Frac).simple.length + (setupOf S glyphs d bw : Setup Frac).complex.length ≤ 100 := by
  simp [setupOf, otherStrats, simpleStrats, complexStrats]

/-- The candidates of a letter on which no near tie decides are those of exact arithmetic, for any two sorts. -/
theorem C96_letter_partial (S S' : StdSort) (imgs : List Image) (glyphs : List (List View)) (d : Datas) (bw : List (List Nat))
    (a r : Image) (hi : ∀ i ∈ imgs, Sized i) (ha : Sized a) (hn : glyphs.length = imgs.length) (he : [] ∉ glyphs)
    (hl : Learnt imgs d) (hb : checkTables glyphs d = .ok bw) (hr : a.rotate90 = .ok r)
    (hs : Clear (setupOf S' glyphs d bw : Setup Frac) a r) :
    candidates (setupOf S glyphs d bw : Setup Double) a = candidates (setupOf S' glyphs d bw : Setup Frac) a := by
  have hb' : dataIndexesByWords glyphs = .ok bw := by
    unfold checkTables at hb
    rwa [if_neg (by rw [learnt_size hl, hn]; simp)] at hb
  by_cases hc : Blocked imgs glyphs a
  · unfold candidates
    rw [hr, Res.ok_bind, Res.ok_bind, blocked_ub S glyphs bw hl hi hn hb' he ha hr hc, blocked_ub S' glyphs bw hl hi hn hb' he ha hr hc]
    rfl
  have key : SetupOk (setupOf S glyphs d bw : Setup Double) (valOf a r) glyphs.length a r := by
    rw [hn]
    exact comparable_ok S glyphs bw hl hi hn hb' he ha hr hc
  have key' : SetupOk (setupOf S' glyphs d bw : Setup Frac) (valOf a r) glyphs.length a r := by
    rw [hn]
    exact comparable_ok S' glyphs bw hl hi hn hb' he ha hr hc
  obtain ⟨o, o', e1, e2, e3⟩ := computeImage_rounding (alikeTables S S' glyphs d bw) key key' (strategies_few S' glyphs d bw) hs [] []
  unfold candidates
  rw [hr, Res.ok_bind, Res.ok_bind, e1, e2, Res.ok_bind, Res.ok_bind, e3]

/-- No near tie decides on any letter of the line. -/
def ClearLine (g : RGlyphs) (d : Datas) (i : Image) : Prop :=
  ∀ bw bs as, checkTables g.views d = .ok bw → segment i = .ok bs → Pictures i bs as → ∀ a ∈ as, ∀ r, a.rotate90 = .ok r →
    Clear (setupOf insertionSort g.views d bw : Setup Frac) a r

/-- **C96** for lines whose letters are clear: what is read, or that nothing is, is what exact arithmetic gives, for any two sorts.
Missing: letters that two glyphs with different views match almost equally well, or one twice as well as the other. -/
theorem C96_line_partial (S S' : StdSort) (imgs : List Image) (d : Datas) (g : RGlyphs) (W : Nat → List Nat)
    (infos : List WordInfo) (E : List FNode) (i : Image) (ht : Tables imgs d g W) (hi : LineImage i)
    (hs : ClearLine g d i) : readLine Double S g d infos E i = readLine Frac S' g d infos E i := by
  by_cases hcmp : ¬ Compared imgs g.views i
  · rw [readLine_blocked S imgs d g W infos E i ht.learnt ht.letters ht.same ht.views ht.known hi hcmp,
      readLine_blocked S' imgs d g W infos E i ht.learnt ht.letters ht.same ht.views ht.known hi hcmp]
  have hcmp := Classical.byContradiction hcmp
  obtain ⟨bw, hb, _⟩ := C33_by_words g.views ht.views
  have hck : checkTables g.views d = .ok bw := by
    unfold checkTables
    rw [if_neg (by rw [learnt_size ht.learnt, ht.same]; simp), hb]
  unfold readLine
  rw [hck, Res.ok_bind, Res.ok_bind]
  have hsz := hi.size
  have wf := hi.wf
  obtain ⟨bs, e, hlen, hbox, _⟩ := C13_segmentation_partial i wf hi.w hi.h (by omega) hi.row
  have hin : ∀ b ∈ bs, 0 < b.w ∧ 0 < b.h ∧ b.x + b.w ≤ i.bounds.w ∧ b.y + b.h ≤ i.bounds.h := by
    intro b hb
    obtain ⟨⟨x0, c⟩, _⟩ := hbox b hb
    exact ⟨c.wpos, c.hpos, c.right, c.bottom⟩
  obtain ⟨as, hp, hal⟩ := pictures_exist wf bs hin
  have hla := hi.pictures e hp
  have key : ∀ (P : Type) [MonoDbl P] (T : StdSort) (a r : Image), a ∈ as → a.rotate90 = .ok r →
      SetupOk (setupOf T g.views d bw : Setup P) (valOf a r) g.views.length a r := by
    intro P _ T a r ha hr
    rw [ht.same]
    exact comparable_ok T g.views bw ht.learnt ht.letters ht.same hb ht.views (hla a ha) hr (hcmp bs as e hp a ha)
  have hg : WordsRead (setupOf S g.views d bw : Setup Double) g := by
    intro vs hvs v hv
    have := ht.known vs hvs v hv
    exact ⟨_, getWord_of this.holds this.small⟩
  have hread : ∀ a ∈ as, Readable (setupOf S g.views d bw : Setup Double) g a := by
    intro a ha
    have l := hla a ha
    obtain ⟨r, er, _⟩ := l.rotate
    refine readable_of l.wf l.w l.h ?_ er (key Double S a r ha er) hg
    have h1 := l.area
    simp only [W32]
    omega
  obtain ⟨m, keys, e2, _⟩ := lineLoop_ok (s := (setupOf S g.views d bw : Setup Double)) (g := g) wf (by omega)
    (i.bounds.w + 1) 0 bs as (Line.init Double) [] [] e hin hp hread (lineInv_init _) rfl (Nat.zero_le _) rfl
    (by show 0 + _ < _; have := wf.w_lt; omega) rfl
  obtain ⟨t, e3⟩ := lineLoop_same (s := (setupOf S g.views d bw : Setup Double)) (s' := (setupOf S' g.views d bw : Setup Frac)) (g := g)
    wf (by omega) (i.bounds.w + 1) 0 bs as (Line.init Double) m [] [] [] e hin hp hread
    (fun a ha r hr t t' => by
      have hset := hs bw bs as hck e hp a ha r hr
      exact computeImage_rounding (alikeTables S S' g.views d bw) (key Double S a r ha hr) (key Frac S' a r ha hr)
        (strategies_few S' g.views d bw) ⟨hset.perfect, hset.order, hset.half⟩ t t')
    (lineInv_init _) rfl (Nat.zero_le _) rfl (by show 0 + _ < _; have := wf.w_lt; omega) rfl e2
  unfold extractText
  have e3 : lineLoop (setupOf S' g.views d bw : Setup Frac) g i (i.bounds.w + 1) 0 (Line.init Frac) = .ok (m.withTmp t) := e3
  rw [e2, e3, Res.ok_bind, Res.ok_bind]
  rfl

/-- The whole program, with the files that were read. -/
theorem C96_program_partial (S : StdSort) (f : ProgFiles) (imgs : List Image) (d : Datas) (g : RGlyphs)
    (W : Nat → List Nat) (i : Image) (hd : loadDatas f.datas = .ok d) (hg : loadGlyphs f.glyphs = .ok g)
    (hi : loadImage f.image 128 = .ok i) (ht : Tables imgs d g W) (hl : LineImage i) (hs : ClearLine g d i) :
    program Double S f = program Frac S f := by
  unfold program
  rw [hd, hg]
  simp only [Res.ok_bind, hi]
  refine congrArg (fun k => loadDict f.dict >>= k) (funext fun E => ?_)
  split
  · rfl
  · refine congrArg (fun k => loadInfos S g f.infos >>= k) (funext fun infos => ?_)
    exact C96_line_partial S S imgs d g W infos E i ht hl hs

/-- The two glyphs of `tieText`. -/
def tieA : Image := ⟨⟨5, 5⟩, [45, 120, 45, 45, 45, 120, 120, 120, 120, 120, 120, 45, 120, 120, 120, 120, 45, 45, 120, 120, 120, 120, 45, 120, 120]⟩
def tieB : Image := ⟨⟨5, 5⟩, [45, 120, 45, 45, 45, 120, 120, 120, 120, 120, 120, 120, 120, 120, 120, 120, 45, 45, 120, 120, 120, 120, 45, 120, 120]⟩

/-- Another letter, and the letter turned. -/
def clearLetter : Image := ⟨⟨5, 5⟩, [45, 120, 45, 45, 45, 120, 120, 120, 120, 120, 120, 45, 120, 120, 120, 120, 45, 45, 120, 120, 120, 120, 45, 45, 120]⟩
def clearTurned : Image :=
  match clearLetter.rotate90 with
  | .ok r => r
  | _ => clearLetter

def tieViews : List (List View) := [[⟨0, 0⟩], [⟨1, 0⟩]]

/-- The percentages of the two glyphs for this letter. -/
def clearPercents : List (List Nat) :=
  [[100, 100, 100, 100, 100, 100, 96, 97, 95, 95, 95, 98, 93, 97, 100, 94, 100, 94, 100, 96, 100, 100, 100],
   [100, 100, 100, 100, 100, 100, 96, 100, 95, 100, 95, 100, 93, 100, 100, 94, 96, 94, 97, 92, 100, 100, 100]]

/-- The letter is clear: both glyphs are left, with probabilities that differ by two percent; the candidates are the second and the
first. -/
example : ∃ d bw, Datas.empty.loadAll [tieA, tieB] = .ok d ∧ checkTables tieViews d = .ok bw ∧
    Clear (setupOf insertionSort tieViews d bw : Setup Frac) clearLetter clearTurned ∧
    candidates (setupOf reversingSort tieViews d bw : Setup Double) clearLetter = .ok [⟨1, 0⟩, ⟨0, 0⟩] := by
  have hi : ∀ i ∈ [tieA, tieB], Sized i := by
    intro i hi
    simp only [List.mem_cons, List.not_mem_nil, or_false] at hi
    rcases hi with rfl | rfl <;> exact ⟨⟨by decide, by decide, by decide, by decide⟩, by decide, by decide, by decide, by decide⟩
  obtain ⟨d, ed, hl⟩ := learnt_loadAll [tieA, tieB] hi
  obtain ⟨bw, hb, _⟩ := C33_by_words tieViews (by decide)
  have hck : checkTables tieViews d = .ok bw := by
    unfold checkTables
    rw [if_neg (by rw [learnt_size hl]; decide), hb]
  refine ⟨d, bw, ed, hck, ?_⟩
  have hp : (do let d ← Datas.empty.loadAll [tieA, tieB]
                let bw ← checkTables tieViews d
                return [0, 1].map (percents (setupOf insertionSort tieViews d bw : Setup Frac) clearLetter clearTurned)) =
      .ok clearPercents := by decide +kernel
  rw [ed, Res.ok_bind, hck, Res.ok_bind] at hp
  have hp := Res.ok.inj hp
  have hc : (do let d ← Datas.empty.loadAll [tieA, tieB]
                let bw ← checkTables tieViews d
                candidates (setupOf insertionSort tieViews d bw : Setup Frac) clearLetter) = .ok [⟨1, 0⟩, ⟨0, 0⟩] := by decide +kernel
  rw [ed, Res.ok_bind, hck, Res.ok_bind] at hc
  have p0 : percents (setupOf insertionSort tieViews d bw : Setup Frac) clearLetter clearTurned 0 = clearPercents.getD 0 [] := by
    rw [← hp]; rfl
  have p1 : percents (setupOf insertionSort tieViews d bw : Setup Frac) clearLetter clearTurned 1 = clearPercents.getD 1 [] := by
    rw [← hp]; rfl
  have two : ∀ g, Close (setupOf insertionSort tieViews d bw : Setup Frac) clearLetter clearTurned g → g = 0 ∨ g = 1 := by
    intro g h
    obtain ⟨t, h1, _⟩ := h (d.simple firstStrat) (by simp [setupOf])
    have h1 := (List.getElem?_eq_some_iff.1 h1).1
    have h2 : (d.simple firstStrat).tab.length = 2 := by
      have := (get_learnt hl (simpleStrats_registered (s := firstStrat) (by decide))).1
      show ((d.get firstStrat).map Value.toNum).length = 2
      rw [List.length_map, this]
      rfl
    omega
  have none : ∀ g, ¬ Perfect (setupOf insertionSort tieViews d bw : Setup Frac) clearLetter clearTurned g := by
    rintro g ⟨h1, h2⟩
    rcases two g h1 with rfl | rfl
    · have := h2 96 (by
        have : 96 ∈ (percents (setupOf insertionSort tieViews d bw : Setup Frac) clearLetter clearTurned 0).take 20 := by
          rw [p0]; decide
        unfold percents at this
        rwa [List.take_append_of_le_length (by simp [simplePercents, setupOf, otherStrats, simpleStrats]),
          List.take_of_length_le (by simp [simplePercents, setupOf, otherStrats, simpleStrats])] at this)
      omega
    · have := h2 96 (by
        have : 96 ∈ (percents (setupOf insertionSort tieViews d bw : Setup Frac) clearLetter clearTurned 1).take 20 := by
          rw [p1]; decide
        unfold percents at this
        rwa [List.take_append_of_le_length (by simp [simplePercents, setupOf, otherStrats, simpleStrats]),
          List.take_of_length_le (by simp [simplePercents, setupOf, otherStrats, simpleStrats])] at this)
      omega
  have clear : Clear (setupOf insertionSort tieViews d bw : Setup Frac) clearLetter clearTurned := by
    refine ⟨fun g _ h => absurd h (none g), ?_, ?_⟩
    · intro _ g h hg hh
      unfold chance
      rcases two g hg.1 with rfl | rfl <;> rcases two h hh.1 with rfl | rfl
      · exact .inl ⟨rfl, rfl⟩
      · right; rw [p0, p1]; unfold Spec.Apart; decide
      · right; rw [p0, p1]; unfold Spec.Apart; decide
      · exact .inl ⟨rfl, rfl⟩
    · intro _ g h hg hh
      unfold chance
      rcases two g hg.1 with rfl | rfl <;> rcases two h hh.1 with rfl | rfl
      · rw [p0]; unfold Spec.Apart; decide
      · rw [p0, p1]; unfold Spec.Apart; decide
      · rw [p0, p1]; unfold Spec.Apart; decide
      · rw [p1]; unfold Spec.Apart; decide
  refine ⟨clear, ?_⟩
  rw [← hc]
  exact C96_letter_partial reversingSort insertionSort [tieA, tieB] tieViews d bw clearLetter clearTurned hi
    ⟨⟨by decide, by decide, by decide, by decide⟩, by decide, by decide, by decide, by decide⟩ rfl (by decide) hl hck (by decide +kernel) clear

end Ppocr.Props

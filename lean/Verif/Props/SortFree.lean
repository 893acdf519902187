import Verif.Proofs.SortFree
import Verif.Props.NormalizeOrder
import Verif.Props.Damage

/-! # The recognised text and `std::sort` (C72) -/

namespace Ppocr.Props
open Ppocr Spec

/-- Full statement of **C72**: what the program answers does not depend on what `std::sort` does with equivalent elements. -/
def C72_statement (P : Type) [Dbl P] : Prop := ∀ (S S' : StdSort) (f : ProgFiles), program P S f = program P S' f

/-- Two glyphs, the letters `/` and `\`, learnt as `a` and `b`. -/
def slashText : List Nat := bytes "2 2 -xx-\n1\na f 0\n2 2 x--x\n1\nb f 0\n"

/-- The features of the two glyphs as `write_datas` computes them. -/
def slashDatas : List Nat :=
  match writeDatas (some slashText) with
  | .ok r => r.2
  | _ => []

/-- Two pictures of the first glyph. -/
def slashes : Image := ⟨⟨6, 2⟩, [45, 120, 45, 45, 120, 45, 120, 45, 45, 120, 45, 45]⟩

def slashFiles : ProgFiles := ⟨some slashText, some slashDatas, ppm slashes, none, none⟩

/-- The glyphs are as `normalize_glyphs` leaves them, and learning works. -/
theorem C72_slash_files : normalizeMain insertionSort [some slashText] = .ok (0, slashText) ∧
    writeDatas (some slashText) = .ok (0, slashDatas) := by
  constructor <;> decide +kernel

/-- The two glyphs have the same features: it is left to `std::sort` which one is printed. -/
theorem C72_slash : program Frac insertionSort slashFiles = .ok ⟨[97, 97], 0, 2⟩ ∧
    program Frac reversingSort slashFiles = .ok ⟨[98, 98], 0, 2⟩ := by
  constructor <;> decide +kernel

theorem C72_false : ¬ C72_statement Frac := by
  intro h
  have := h insertionSort reversingSort slashFiles
  rw [C72_slash.1, C72_slash.2] at this
  exact absurd this (by decide)

/-- The features of pictures, and glyphs with words in memory. -/
structure Tables (imgs : List Image) (d : Datas) (g : RGlyphs) (W : Nat → List Nat) : Prop where
  learnt : Learnt imgs d
  letters : ∀ a ∈ imgs, Sized a
  same : g.views.length = imgs.length
  views : [] ∉ g.views
  known : AllKnown g W g.views

/-- Every letter of the line is settled. -/
def SettledLine (P : Type) [Dbl P] (g : RGlyphs) (d : Datas) (i : Image) : Prop :=
  ∀ bw bs as, checkTables g.views d = .ok bw → segment i = .ok bs → Pictures i bs as → ∀ a ∈ as, ∀ r, a.rotate90 = .ok r →
    Settled (setupOf insertionSort g.views d bw : Setup P) a r

theorem sameTables (P : Type) [Dbl P] (S S' : StdSort) (glyphs : List (List View)) (d : Datas) (bw : List (List Nat)) :
    SameTables (setupOf S glyphs d bw : Setup P) (setupOf S' glyphs d bw) glyphs.length :=
  ⟨rfl, rfl, rfl, rfl, rfl, rfl, rfl, fun i j hi hj => viewsIndexes_classes S S' glyphs i j hi hj⟩

section
variable {P : Type} [MonoDbl P]

/-- The candidates of a letter that is settled do not depend on the sort. -/
theorem C72_letter_partial (S S' : StdSort) (imgs : List Image) (glyphs : List (List View)) (d : Datas) (bw : List (List Nat))
    (a r : Image) (hi : ∀ i ∈ imgs, Sized i) (ha : Sized a) (hn : glyphs.length = imgs.length) (he : [] ∉ glyphs)
    (hl : Learnt imgs d) (hb : checkTables glyphs d = .ok bw) (hr : a.rotate90 = .ok r)
    (hs : Settled (setupOf insertionSort glyphs d bw : Setup P) a r) :
    candidates (setupOf S glyphs d bw : Setup P) a = candidates (setupOf S' glyphs d bw : Setup P) a := by
  have hb' : dataIndexesByWords glyphs = .ok bw := by
    unfold checkTables at hb
    rwa [if_neg (by rw [learnt_size hl, hn]; simp)] at hb
  by_cases hc : Blocked imgs glyphs a
  · unfold candidates
    rw [hr, Res.ok_bind, Res.ok_bind, blocked_ub S glyphs bw hl hi hn hb' he ha hr hc, blocked_ub S' glyphs bw hl hi hn hb' he ha hr hc]
  have key : ∀ T : StdSort, SetupOk (setupOf T glyphs d bw : Setup P) (valOf a r) glyphs.length a r := by
    intro T
    rw [hn]
    exact comparable_ok T glyphs bw hl hi hn hb' he ha hr hc
  obtain ⟨o, o', e1, e2, e3⟩ := computeImage_same (sameTables P S S' glyphs d bw) (key S) (key S') ⟨hs.perfect, hs.tied⟩ [] []
  unfold candidates
  rw [hr, Res.ok_bind, Res.ok_bind, e1, e2, Res.ok_bind, Res.ok_bind, e3]

/-- With a table in the order of the words, the candidates of any letter are the same words for every sort, in some order. -/
theorem C72_words_partial (S S' : StdSort) (imgs : List Image) (glyphs : List (List View)) (d : Datas) (a : Image)
    (hi : ∀ i ∈ imgs, Sized i) (ha : Sized a) (hc : Comparable imgs glyphs a) (hn : glyphs.length = imgs.length) (he : [] ∉ glyphs)
    (hl : Learnt imgs d) (hw : InWordOrder glyphs) :
    ∃ bw vs vs', checkTables glyphs d = .ok bw ∧ candidates (setupOf S glyphs d bw : Setup P) a = .ok vs ∧
      candidates (setupOf S' glyphs d bw : Setup P) a = .ok vs' ∧ (vs.map View.word).Perm (vs'.map View.word) := by
  obtain ⟨bw, hb, _⟩ := C33_by_words glyphs he
  have hck : checkTables glyphs d = .ok bw := by
    unfold checkTables
    rw [if_neg (by rw [learnt_size hl, hn]; simp), hb]
  obtain ⟨r, hr, _⟩ := ha.rotate
  have key : ∀ T : StdSort, SetupOk (setupOf T glyphs d bw : Setup P) (valOf a r) glyphs.length a r := by
    intro T
    rw [hn]
    exact comparable_ok T glyphs bw hl hi hn hb he ha hr hc
  obtain ⟨o, o', e1, e2, e3⟩ := computeImage_words (sameTables P S S' glyphs d bw) (key S) (key S') (by
    intro i j h1 h2 e
    have hs' : glyphs.Pairwise fun a b => ltViews b a = false := hw.imp fun h => (ltViews_eq_false _ _).2 h
    refine (viewsIndexes_of_sorted S glyphs hs' i j h1 h2).1 ?_
    obtain ⟨_, _, _, hlen, _⟩ := viewsIndexes_sorted S glyphs
    have e : (viewsIndexes S glyphs).getD i 0 = (viewsIndexes S glyphs).getD j 0 := e
    rw [List.getD_eq_getElem?_getD, List.getD_eq_getElem?_getD, List.getElem?_eq_getElem (by omega : i < _),
      List.getElem?_eq_getElem (by omega : j < (viewsIndexes S glyphs).length)] at e
    rw [List.getElem?_eq_getElem (by omega : i < (viewsIndexes S glyphs).length),
      List.getElem?_eq_getElem (by omega : j < (viewsIndexes S glyphs).length)]
    exact congrArg some e) [] []
  refine ⟨bw, o.views, o'.views, hck, ?_, ?_, e3⟩
  · unfold candidates
    rw [hr, Res.ok_bind, e1]
    rfl
  · unfold candidates
    rw [hr, Res.ok_bind, e2]
    rfl

/-- **C72** for lines whose letters are settled: what is read, or that nothing is, is the same. Missing: letters that two glyphs
with different views match equally well. -/
theorem C72_line_partial (S S' : StdSort) (imgs : List Image) (d : Datas) (g : RGlyphs) (W : Nat → List Nat)
    (infos : List WordInfo) (E : List FNode) (i : Image) (ht : Tables imgs d g W) (hi : LineImage i)
    (hs : SettledLine P g d i) : readLine P S g d infos E i = readLine P S' g d infos E i := by
  by_cases hcmp : ¬ Compared imgs g.views i
  · rw [readLine_blocked S imgs d g W infos E i ht.learnt ht.letters ht.same ht.views ht.known hi hcmp,
      readLine_blocked S' imgs d g W infos E i ht.learnt ht.letters ht.same ht.views ht.known hi hcmp]
  have hcmp := Classical.byContradiction hcmp
  obtain ⟨bw, hb, _⟩ := C33_by_words g.views ht.views
  have hck : checkTables g.views d = .ok bw := by
    unfold checkTables
    rw [if_neg (by rw [learnt_size ht.learnt, ht.same]; simp), hb]
  unfold readLine
  rw [hck, Res.ok_bind, Res.ok_bind]
  have hsz := hi.size
  have wf := hi.wf
  obtain ⟨bs, e, hlen, hbox, _⟩ := C13_segmentation_partial i wf hi.w hi.h (by omega) hi.row
  have hin : ∀ b ∈ bs, 0 < b.w ∧ 0 < b.h ∧ b.x + b.w ≤ i.bounds.w ∧ b.y + b.h ≤ i.bounds.h := by
    intro b hb
    obtain ⟨⟨x0, c⟩, _⟩ := hbox b hb
    exact ⟨c.wpos, c.hpos, c.right, c.bottom⟩
  obtain ⟨as, hp, hal⟩ := pictures_exist wf bs hin
  have hla := hi.pictures e hp
  have key : ∀ (T : StdSort) (a r : Image), a ∈ as → a.rotate90 = .ok r →
      SetupOk (setupOf T g.views d bw : Setup P) (valOf a r) g.views.length a r := by
    intro T a r ha hr
    rw [ht.same]
    exact comparable_ok T g.views bw ht.learnt ht.letters ht.same hb ht.views (hla a ha) hr (hcmp bs as e hp a ha)
  have hg : WordsRead (setupOf S g.views d bw : Setup P) g := by
    intro vs hvs v hv
    have := ht.known vs hvs v hv
    exact ⟨_, getWord_of this.holds this.small⟩
  have hread : ∀ a ∈ as, Readable (setupOf S g.views d bw : Setup P) g a := by
    intro a ha
    have l := hla a ha
    obtain ⟨r, er, _⟩ := l.rotate
    refine readable_of l.wf l.w l.h ?_ er (key S a r ha er) hg
    have h1 := l.area
    simp only [W32]
    omega
  obtain ⟨m, keys, e2, _⟩ := lineLoop_ok (s := (setupOf S g.views d bw : Setup P)) (g := g) wf (by omega)
    (i.bounds.w + 1) 0 bs as (Line.init P) [] [] e hin hp hread (lineInv_init _) rfl (Nat.zero_le _) rfl
    (by show 0 + _ < _; have := wf.w_lt; omega) rfl
  obtain ⟨t, e3⟩ := lineLoop_same (s := (setupOf S g.views d bw : Setup P)) (s' := setupOf S' g.views d bw) (g := g) wf (by omega)
    (i.bounds.w + 1) 0 bs as (Line.init P) m [] [] [] e hin hp hread
    (fun a ha r hr t t' => by
      have hset := hs bw bs as hck e hp a ha r hr
      exact computeImage_same (sameTables P S S' g.views d bw) (key S a r ha hr) (key S' a r ha hr)
        ⟨hset.perfect, hset.tied⟩ t t')
    (lineInv_init _) rfl (Nat.zero_le _) rfl (by show 0 + _ < _; have := wf.w_lt; omega) rfl e2
  unfold extractText
  have e3 : lineLoop (setupOf S' g.views d bw : Setup P) g i (i.bounds.w + 1) 0 (Line.init P) = .ok { m with tmp := t } := e3
  rw [e2, e3, Res.ok_bind, Res.ok_bind]

end

/-- The entries of the table of positions concern different words. -/
def OneEntryEach (g : RGlyphs) (es : List WWordLines) : Prop :=
  es.Pairwise fun p q => ∀ i, wordIndexOf g p.str = .ok i → wordIndexOf g q.str = .ok i → i = noIndex

theorem infosLoop_distinct {g : RGlyphs} : ∀ (es : List WWordLines) (l : List WordInfo), OneEntryEach g es →
    infosLoop g es = .ok l → (l.Pairwise fun a b => a.word ≠ b.word) ∧
      ∀ e ∈ l, e.word ≠ noIndex ∧ ∃ p ∈ es, wordIndexOf g p.str = .ok e.word
  | [], l, _, h => by
    cases h
    exact ⟨.nil, by simp⟩
  | p :: es, l, ho, h => by
    obtain ⟨h1, h2⟩ := List.pairwise_cons.1 ho
    unfold infosLoop at h
    obtain ⟨i, ei, h⟩ := Res.bind_eq_ok.1 h
    obtain ⟨r, er, h⟩ := Res.bind_eq_ok.1 h
    obtain ⟨g1, g2⟩ := infosLoop_distinct es r h2 er
    have g3 : ∀ e ∈ r, e.word ≠ noIndex ∧ ∃ q ∈ p :: es, wordIndexOf g q.str = .ok e.word := by
      intro e he
      obtain ⟨x, q, hq, hx⟩ := g2 e he
      exact ⟨x, q, by simp [hq], hx⟩
    cases h
    split
    · rename_i hne
      refine ⟨List.pairwise_cons.2 ⟨?_, g1⟩, ?_⟩
      · intro e he heq
        obtain ⟨_, q, hq, hx⟩ := g2 e he
        exact hne (h1 q hq i ei (by rw [hx, ← heq]))
      · intro e he
        rcases List.mem_cons.1 he with rfl | he
        · exact ⟨hne, p, by simp, ei⟩
        · exact g3 e he
    · exact ⟨g1, g3⟩

/-- The table of positions is the same for every sort, if it has one entry for each word. -/
theorem C72_positions (S S' : StdSort) (g : RGlyphs) (es : List WWordLines) (h : OneEntryEach g es) :
    wordsInfos S g es = wordsInfos S' g es := by
  unfold wordsInfos
  cases hl : infosLoop g es with
  | ok l =>
    obtain ⟨hd, _⟩ := infosLoop_distinct es l h hl
    rw [Res.ok_bind, Res.ok_bind]
    have sw : StrictWeak fun a b : WordInfo => decide (a.word < b.word) :=
      ⟨by simp, by simp only [decide_eq_true_eq]; omega, by simp only [decide_eq_false_iff_not]; omega⟩
    refine congrArg Res.ok (List.Perm.eq_of_pairwise (le := fun a b => decide (b.word < a.word) = false) ?_ (S.sorted _ l sw)
      (S'.sorted _ l sw) ((S.perm _ l sw).trans (S'.perm _ l sw).symm))
    intro a b ha hb h1 h2
    simp only [decide_eq_false_iff_not] at h1 h2
    exact distinct_eq hd ((S.perm _ l sw).mem_iff.1 ha) ((S'.perm _ l sw).mem_iff.1 hb) (by omega)
  | _ => rfl

/-- The whole program, with the files that were read. -/
theorem C72_program_partial {P : Type} [MonoDbl P] (S S' : StdSort) (f : ProgFiles) (imgs : List Image) (d : Datas) (g : RGlyphs)
    (W : Nat → List Nat) (i : Image) (hd : loadDatas f.datas = .ok d) (hg : loadGlyphs f.glyphs = .ok g)
    (hi : loadImage f.image 128 = .ok i) (ht : Tables imgs d g W) (hl : LineImage i) (hs : SettledLine P g d i)
    (ho : ∀ t es, f.infos = some (some t) → Entries t es → OneEntryEach g (keep es)) :
    program P S f = program P S' f := by
  have hinf : loadInfos S g f.infos = loadInfos S' g f.infos := by
    unfold loadInfos
    cases hf : f.infos with
    | none => exact C72_positions S S' g [] .nil
    | some x =>
      cases x with
      | none => rfl
      | some t =>
        obtain ⟨⟨es, he⟩, hr⟩ := C57_reader t []
        obtain ⟨s, e, _⟩ := hr es he
        simp only [openText, Res.ok_bind, e, List.nil_append]
        rw [C72_positions S S' g (keep es) (ho t es hf he)]
  unfold program
  rw [hd, hg]
  simp only [Res.ok_bind, hinf, hi]
  refine congrArg (fun k => loadDict f.dict >>= k) (funext fun E => ?_)
  split
  · rfl
  · refine congrArg (fun k => loadInfos S' g f.infos >>= k) (funext fun infos => ?_)
    exact C72_line_partial S S' imgs d g W infos E i ht hl hs

/-- Two entries for one word: it is left to `std::sort` which one counts. -/
theorem C72_positions_twice :
    (do let g ← finishGlyphs [] [([97], 0), ([98], 1)]
        let l ← wordsInfos insertionSort g [⟨[98], ⟨1, 2, 3, 4⟩⟩, ⟨[98], ⟨5, 0, 0, 0⟩⟩]
        infosGet l 2) = .ok (some ⟨2, ⟨1, 2, 3, 4⟩⟩) ∧
    (do let g ← finishGlyphs [] [([97], 0), ([98], 1)]
        let l ← wordsInfos reversingSort g [⟨[98], ⟨1, 2, 3, 4⟩⟩, ⟨[98], ⟨5, 0, 0, 0⟩⟩]
        infosGet l 2) = .ok (some ⟨2, ⟨5, 0, 0, 0⟩⟩) := by
  constructor <;> decide +kernel

/-- The block is settled among the block and the bar. -/
example : ∃ d bw, Datas.empty.loadAll [block, bar] = .ok d ∧ checkTables twoWords.views d = .ok bw ∧
    Settled (setupOf insertionSort twoWords.views d bw : Setup Frac) block block := by
  obtain ⟨d, E, ed, _, hf⟩ := twoFiles
  obtain ⟨bw, hb, _⟩ := C33_by_words twoWords.views (by decide)
  have hck : checkTables twoWords.views d = .ok bw := by
    unfold checkTables
    rw [if_neg (by rw [learnt_size hf.learnt]; decide), hb]
  refine ⟨d, bw, ed, hck, ?_⟩
  have htab : (do let d ← Datas.empty.loadAll [block, bar]; return (d.simple (.proportionality, .img)).tab) = .ok [50, 33] := by
    decide +kernel
  rw [ed, Res.ok_bind] at htab
  have htab : (d.simple (.proportionality, .img)).tab = [50, 33] := Res.ok.inj htab
  have hload : loaded block block (d.simple (.proportionality, .img)) = 50 := by
    show valueOr 0 (do return (← loadStrat (.proportionality, .img) block block).toNum : Res Nat) = 50
    decide +kernel
  have only : ∀ g, Close (setupOf insertionSort twoWords.views d bw : Setup Frac) block block g → g = 0 := by
    intro g hc
    obtain ⟨t, h1, h2, h3⟩ := hc (d.simple (.proportionality, .img)) (by simp [setupOf, otherStrats, simpleStrats])
    rw [htab] at h1
    rw [hload] at h2 h3
    rcases g with _ | _ | g
    · rfl
    · simp only [Nat.zero_add, List.getElem?_cons_succ, List.getElem?_cons_zero, Option.some.injEq] at h1
      subst h1
      have h3 : 50 ≤ 33 + 100 / 10 := h3
      omega
    · simp at h1
  exact ⟨fun g h hg hh _ _ => by rw [only g hg, only h hh], fun g h hg hh _ _ _ _ => by rw [only g hg, only h hh]⟩

end Ppocr.Props

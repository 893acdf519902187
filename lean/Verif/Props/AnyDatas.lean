import Verif.Props.AnyDict
import Verif.Proofs.AnyDatas

/-! # Any features file (C113) -/

namespace Ppocr.Props
open Ppocr Spec

/-- The first letter of the line has a cell for its bottom in the buffer of the line filter. -/
def LowLine (i : Image) : Prop := ∀ b bs, segment i = .ok (b :: bs) → LowHeld b bs

section
variable (P : Type) [ScoreDbl P]

/-- **C113**, full statement: a line that is read with one features file is read with any other that the program takes, with as
many letters. -/
def C113_statement (S : StdSort) : Prop :=
  ∀ (f : ProgFiles) (t : TextFile) (d d' : Datas) (ans : Answer), f.infos = none → program P S f = .ok ans →
    loadDatas f.datas = .ok d → loadDatas t = .ok d' → d'.size = d.size →
    ∃ ans', program P S { f with datas := t } = .ok ans' ∧ ans'.count = ans.count

end

/-! ### The full statement is false -/

theorem loadDatas_eof {t : List Nat} (h : (datasRead (IS.of t)).2.eof = true) : loadDatas (some t) = .ok (datasRead (IS.of t)).1 := by
  unfold loadDatas openText checkEof
  simp only [Res.ok_bind, h, if_true, Res.pure_eq]

/-- Two blocks of different width, learnt as `a` and `!` and read. -/
def cutDemo (t : Option (List Nat)) : Res Answer :=
  let g := writeGlyphs 128 [⟨ppm (spread [(0, 2), (1, 1)]), some (bytes "a !"), bytes "font"⟩]
  do
    let r ← writeDatas (some g.out)
    program Frac insertionSort ⟨some g.out, some (t.getD r.2), ppm (spread [(0, 2), (1, 2), (1, 1)]), none, none⟩

/-- The file that `write_datas` makes for them, cut off within the third line, is taken, and the fifth table has no values. -/
theorem C113_cut : cutDemo none = .ok ⟨bytes "aa!", 0, 3⟩ ∧ cutDemo (some (bytes "2\n100 50 \n100 50 \n0 0")) = .ub ∧
    ∃ d, loadDatas (some (bytes "2\n100 50 \n100 50 \n0 0")) = .ok d ∧ d.size = 2 ∧ ¬ Whole d := by
  refine ⟨by decide +kernel, by decide +kernel, ⟨_, loadDatas_eof (by decide +kernel), by decide +kernel, ?_⟩⟩
  intro h
  have : ∀ t ∈ (datasRead (IS.of (bytes "2\n100 50 \n100 50 \n0 0"))).1.tables,
      t.vals.length = (datasRead (IS.of (bytes "2\n100 50 \n100 50 \n0 0"))).1.size := h
  revert this
  decide +kernel

theorem C113_false : ¬ C113_statement Frac insertionSort := by
  intro h
  obtain ⟨h1, h2, d', h3, h4, _⟩ := C113_cut
  unfold cutDemo at h1 h2
  simp only [] at h1 h2
  obtain ⟨r, hr, h1⟩ := Res.bind_eq_ok.1 h1
  rw [hr, Res.ok_bind] at h2
  have hd : ∃ d, loadDatas (some r.2) = .ok d ∧ d.size = 2 := by
    have : (do let r ← writeDatas (some (writeGlyphs 128 [⟨ppm (spread [(0, 2), (1, 1)]), some (bytes "a !"), bytes "font"⟩]).out)
               let d ← loadDatas (some r.2)
               return d.size : Res Nat) = .ok 2 := by decide +kernel
    rw [hr, Res.ok_bind] at this
    obtain ⟨d, e, e'⟩ := Res.bind_eq_ok.1 this
    exact ⟨d, e, by simpa using e'⟩
  obtain ⟨d, e, es⟩ := hd
  obtain ⟨ans', e', _⟩ := h ⟨some (writeGlyphs 128 [⟨ppm (spread [(0, 2), (1, 1)]), some (bytes "a !"), bytes "font"⟩]).out,
    some r.2, ppm (spread [(0, 2), (1, 2), (1, 1)]), none, none⟩ (some (bytes "2\n100 50 \n100 50 \n0 0")) d d' _ rfl h1 e h3 (by rw [h4, es])
  have := h2.symm.trans e'
  cases this

/-- The line of two letters, each 3 by 3 points without the middle one at the right. -/
def notches : Image :=
  ⟨⟨10, 3⟩, [45, 120, 120, 120, 45, 45, 120, 120, 120, 45] ++ [45, 120, 120, 45, 45, 45, 120, 120, 45, 45] ++
    [45, 120, 120, 120, 45, 45, 120, 120, 120, 45]⟩

/-- A features file for these two letters with 67 in place of 66 in the first table, so that no letter looks exactly like a glyph;
`p` is the percentage of the notch of the first glyph, which is 100. -/
def notchDatas (p : String) : List Nat :=
  bytes ("2\n67 67 \n66 66 \n100 100 \n100 100 \n100 100 \n100 100 \n100 100 \n80 80 \n50 50 \n33 33 \n100 100 \n80 80 \n50 50 \n" ++
    "33 33 \n50 50 \n100 100 \n80 80 \n100 100 \n80 80 \n88 88 \n2 2 \n1 1 \n1 1 1 2 1 1 1 1 1 1 1 1 1 3 1 1 1 2 1 1 1 1 1 1 1 1 1 3 \n" ++
    "1 1 0 1 0 0 0 1 1 0 1 0 0 0 \n1 " ++ p ++ " 1 100 \n")

/-- The line read after both letters were learnt as `c`. -/
def notchDemo (p : String) : Res Answer :=
  let g := writeGlyphs 128 [⟨ppm notches, some (bytes "c c"), bytes "font"⟩]
  program Frac insertionSort ⟨some g.out, some (notchDatas p), ppm notches, none, none⟩

/-- Tables that are whole do not help: with 4294967196 percent the sum with the percentage of the letter is 0 in 32 bits, and the
program divides by it; with more the quotient fails the assertion on it. A number that does not fit in 32 bits is refused. -/
theorem C113_wrap : notchDemo "7" = .ok ⟨bytes "cc", 0, 2⟩ ∧ notchDemo "4294967195" = .ok ⟨bytes "cc", 0, 2⟩ ∧
    notchDemo "4294967196" = .ub ∧ notchDemo "4294967197" = .abort ∧ notchDemo "4294967296" = .throw ∧
    ∃ d, loadDatas (some (notchDatas "4294967196")) = .ok d ∧ Whole d ∧ ¬ NoWrap d := by
  refine ⟨by decide +kernel, by decide +kernel, by decide +kernel, by decide +kernel, by decide +kernel, ⟨_, loadDatas_eof (by decide +kernel), ?_, ?_⟩⟩
  · show ∀ t ∈ (datasRead (IS.of (notchDatas "4294967196"))).1.tables, t.vals.length = _
    decide +kernel
  · intro h
    have := h 4294967196 ⟨⟨(.propZone, .img), [.arr [4294967196], .arr [100]]⟩, by
      show _ ∈ (datasRead (IS.of (notchDatas "4294967196"))).1.tables
      decide +kernel, rfl, [4294967196], by decide, by decide⟩
    omega

/-! ## What is true -/

section
variable {P : Type} [ScoreDbl P]

theorem loadInfos_sorted {S : StdSort} {g : RGlyphs} {infos : List WordInfo} : ∀ {f : Option TextFile}, loadInfos S g f = .ok infos →
    InfosSorted infos := by
  intro f h
  cases f with
  | none => exact (wordsInfos_sorted h).1
  | some f =>
    unfold loadInfos at h
    obtain ⟨_, _, h⟩ := Res.bind_eq_ok.1 h
    obtain ⟨_, _, h⟩ := Res.bind_eq_ok.1 h
    obtain ⟨_, _, h⟩ := Res.bind_eq_ok.1 h
    exact (wordsInfos_sorted h).1

/-- **C113**: what the program does with any features file that is whole and has no percentage near 2^32, and any dictionary
that does not lead out of itself: all letters of the line are counted, and the text is put together from words of the glyphs. The
only other outcome is that of C62: the first letter has no cell in the buffer of the line filter. -/
theorem C113_program_partial (S : StdSort) (f : ProgFiles) (d : Datas) (g : RGlyphs) (W : Nat → List Nat) (infos : List WordInfo)
    (E : List FNode) (i : Image) (h1 : loadDatas f.datas = .ok d) (h2 : loadGlyphs f.glyphs = .ok g)
    (h3 : loadInfos S g f.infos = .ok infos) (h4 : loadDict f.dict = .ok E) (h5 : loadImage f.image 128 = .ok i)
    (hsize : g.views.length = d.size) (hwhole : Whole d) (hnw : NoWrap d) (hviews : [] ∉ g.views)
    (hfew : (g.views.map List.length).sum < W32) (hknown : AllKnown g W g.views) (hin : StaysInside E)
    (hi : LineImage i) (hdiv : ∀ bs as, segment i = .ok bs → Pictures i bs as → ∀ a ∈ as, Divides d a) :
    ∃ bw bs, checkTables g.views d = .ok bw ∧ segment i = .ok bs ∧
      (¬ FirstHeld (setupOf S g.views d bw : Setup P) infos i → program P S f = .ub) ∧
      (FirstHeld (setupOf S g.views d bw : Setup P) infos i →
        ∃ (ws : List (List Nat)) (un : Nat) (lead : List (List (List Nat))) (segs : List (List (List (List Nat)))),
          (lead ++ segs.flatten).length = bs.length ∧ (∀ l ∈ lead ++ segs.flatten, ∀ w ∈ l, GlyphWord g W w) ∧
          un = (segs.flatten.filter (· = [])).length ∧
          program P S f = .ok ⟨encAll (lead.flatMap firstOf ++ [32].intercalate (segs.map (segText ws))), un, bs.length⟩) := by
  have hinf := loadInfos_sorted h3
  obtain ⟨bw, hb, _⟩ := C33_by_words g.views hviews
  have hck : checkTables g.views d = .ok bw := by
    unfold checkTables
    rw [if_neg (by rw [hsize]; simp), hb]
  have hprog : program P S f = readLine P S g d infos E i := by
    unfold program readLine
    rw [h4, Res.ok_bind, h1, Res.ok_bind, h2, Res.ok_bind, if_neg (by rw [hsize]; simp), h3, Res.ok_bind, hck, Res.ok_bind,
      Res.ok_bind, h5, Res.ok_bind]
  have hset : ∀ bs as, segment i = .ok bs → Pictures i bs as → ∀ a ∈ as,
      ∃ r val n, a.rotate90 = .ok r ∧ SetupOk (setupOf S g.views d bw : Setup P) val n a r := by
    intro bs as e hp a ha
    have hla := hi.pictures e hp a ha
    obtain ⟨r, er, _⟩ := hla.rotate
    have ht := tabs_of h1 hwhole
    rw [← hsize] at ht
    exact ⟨r, _, _, er, setup_any S ht hnw hb hviews hla er (hdiv bs as e hp a ha)⟩
  have hsz := hi.size
  obtain ⟨bs, e, _⟩ := C13_segmentation_partial i hi.wf hi.w hi.h (by omega) hi.row
  refine ⟨bw, bs, hck, e, fun hh => ?_, fun hh => ?_⟩
  · rw [hprog]
    unfold readLine
    rw [hck, Res.ok_bind]
    refine extractText_unheld (setupOf S g.views d bw : Setup P) g infos E i hi.wf hi.w hi.h hi.size hi.row ?_ hset hfew hinf hh
    intro vs hvs v hv
    have := hknown vs hvs v hv
    exact ⟨_, getWord_of this.holds this.small⟩
  · obtain ⟨bs', un, lead, segs, e', k1, k2, ku, k3⟩ := readLine_searched (P := P) S d g W infos i bw hck hi hknown hfew hinf hset hh
    rw [e, Res.ok.injEq] at e'
    subst e'
    obtain ⟨ws, hw⟩ := searchesOn_of_inside hin (lead ++ segs.flatten).flatten bs.length
    exact ⟨ws, un, lead, segs, k1, k2, ku, by rw [hprog, k3 ws E hw]⟩

omit [ScoreDbl P] in
/-- Without a table of words no letter counts for the meanline. -/
theorem firstHeld_none [Dbl P] (s : Setup P) {i : Image} (hi : LineImage i) : FirstHeld s [] i ↔ LowLine i := by
  have hno : ∀ b bs v, ¬ CountsMean [] b bs v := by
    rintro b bs v ⟨_, mid, n, _, _, h⟩
    refine h ?_
    unfold meanTop
    rw [if_neg]
    rintro ⟨_, v, e, _, h, _⟩
    simp [lookup] at h
  constructor
  · intro h b bs e
    have hsz := hi.size
    obtain ⟨bs', e', _, hbox, _⟩ := C13_segmentation_partial i hi.wf hi.w hi.h (by omega) hi.row
    rw [e, Res.ok.injEq] at e'
    obtain ⟨as, hp, hl⟩ := pictures_exist hi.wf bs' (by
      intro c hc
      obtain ⟨⟨x0, c⟩, _⟩ := hbox c hc
      exact ⟨c.wpos, c.hpos, c.right, c.bottom⟩)
    subst e'
    cases as with
    | nil => simp at hl
    | cons a as => exact (h b bs a as e hp).1
  · intro h b bs a as e _
    exact ⟨h b bs e, .inr fun v _ => hno b bs v⟩

/-- Letters whose width and height are at most 50 together can be compared with anything. -/
theorem divides_small {a : Image} (ha : Sized a) (h : a.bounds.w + a.bounds.h ≤ 50) (d : Datas) : Divides d a := by
  obtain ⟨r, e, hr⟩ := C24_pz_small_images a ha.wf ha.w ha.h h
  right
  intro l hl x hx
  rw [e, Res.ok.injEq] at hl
  exact (hr x (hl ▸ hx)).1

/-- **C113** without a table of words: whether a line is read depends on its picture only, and so does the number of its letters. No
features file that is whole, with any percentage up to 2^32 - 101, can change this, if the letters are small. -/
theorem C113_picture_only_partial (S : StdSort) (f : ProgFiles) (d : Datas) (g : RGlyphs) (W : Nat → List Nat) (E : List FNode) (i : Image)
    (h1 : loadDatas f.datas = .ok d) (h2 : loadGlyphs f.glyphs = .ok g) (h3 : f.infos = none) (h4 : loadDict f.dict = .ok E)
    (h5 : loadImage f.image 128 = .ok i) (hsize : g.views.length = d.size) (hwhole : Whole d) (hnw : NoWrap d) (hviews : [] ∉ g.views)
    (hfew : (g.views.map List.length).sum < W32) (hknown : AllKnown g W g.views) (hin : StaysInside E) (hi : LineImage i)
    (hsmall : ∀ bs, segment i = .ok bs → ∀ b ∈ bs, b.w + b.h ≤ 50) :
    (¬ LowLine i → program P S f = .ub) ∧
    (LowLine i → ∃ ans bs, program P S f = .ok ans ∧ segment i = .ok bs ∧ ans.count = bs.length ∧ ans.unrecognized ≤ bs.length) := by
  have hl : loadInfos S g f.infos = .ok [] := by
    rw [h3]
    show wordsInfos S g [] = _
    have e : wordsInfos S g [] = .ok (S.sort (fun a b : WordInfo => decide (a.word < b.word)) []) := rfl
    rw [e, (S.perm _ _ infoLt_strictWeak).eq_nil]
  obtain ⟨bw, bs, hck, e, k1, k2⟩ := C113_program_partial (P := P) S f d g W [] E i h1 h2 hl h4 h5 hsize hwhole hnw hviews hfew hknown
    hin hi (by
      intro bs as e hp a ha
      obtain ⟨b, hb, e'⟩ := pictures_box hp ha
      refine divides_small (hi.pictures e hp a ha) ?_ d
      have hsz := hi.size
      obtain ⟨bs', e2, _, hbox, _⟩ := C13_segmentation_partial i hi.wf hi.w hi.h (by omega) hi.row
      rw [e] at e2
      cases e2
      obtain ⟨⟨x0, c⟩, _⟩ := hbox b hb
      have c1 := c.right
      have c2 := c.bottom
      obtain ⟨a', e1, _, hab, _⟩ := C55_section i hi.wf b.x b.y b.bounds c.wpos c.hpos (show b.w + b.x ≤ _ by omega)
        (show b.h + b.y ≤ _ by omega)
      rw [e'] at e1
      cases e1
      rw [hab]
      exact hsmall bs e b hb)
  rw [firstHeld_none _ hi] at k1 k2
  refine ⟨k1, fun h => ?_⟩
  obtain ⟨ws, un, lead, segs, hlen, _, hun, hp⟩ := k2 h
  refine ⟨_, bs, hp, e, rfl, ?_⟩
  have := List.length_filter_le (fun x : List (List Nat) => decide (x = [])) segs.flatten
  rw [List.length_append] at hlen
  show un ≤ bs.length
  omega

end

/-- **C113**: the features of pictures of a reasonable size are whole, and their percentages are percentages. -/
theorem C113_learnt (imgs : List Image) (d : Datas) (h : Learnt imgs d) (hi : ∀ i ∈ imgs, Sized i) :
    Whole d ∧ ∀ y, BorderPart d y → y ≤ 100 := by
  refine ⟨fun t ht => by rw [(h.rows t ht).1, learnt_size h], ?_⟩
  rintro y ⟨t, ht, hs, l, hl, hy⟩
  obtain ⟨hlen, hk⟩ := h.rows t ht
  obtain ⟨k, hk1, hk2⟩ := List.mem_iff_getElem.1 hl
  obtain ⟨i, hik⟩ : ∃ i, imgs[k]? = some i := ⟨imgs[k]'(by omega), List.getElem?_eq_getElem (by omega)⟩
  have hsi := hi i (List.mem_of_getElem? hik)
  obtain ⟨r, hr, _⟩ := hsi.rotate
  obtain ⟨v, h1, h2⟩ := hk k i r hik hr
  rw [List.getElem?_eq_getElem hk1, Option.some.injEq, hk2] at h1
  subst h1
  obtain ⟨l', e, hs'⟩ := load_propZone hsi r
  rw [hs, show feature (.propZone, .img) i r = Feat.propZone.load i r from rfl, e, Res.ok.injEq, Value.arr.injEq] at h2
  subst h2
  exact Nat.le_trans (le_sum_of_mem hy) hs'

/-- With a features file of zeros the letters are counted, and no one is recognised; with one zero more it is refused. -/
example : cutDemo (some (bytes "2\n" ++ (List.replicate 88 (bytes "0 ")).flatten)) = .ok ⟨[], 0, 3⟩ ∧
    cutDemo (some (bytes "2\n" ++ (List.replicate 89 (bytes "0 ")).flatten)) = .throw := by
  refine ⟨by decide +kernel, by decide +kernel⟩

end Ppocr.Props

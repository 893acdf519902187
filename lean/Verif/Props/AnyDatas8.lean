import Verif.Props.AnyDatas6
import Verif.Props.Letter8
import Verif.Proofs.AnyDatas8

/-! # Any features file for `extract_text8` (C117) -/

namespace Ppocr.Props
open Ppocr Spec

/-- **C117**, full statement: a line that `extract_text8` reads with one features file is read with any other that the program takes, with
as many entries. -/
def C117_statement (P : Type) [LawfulProb8 P] (S : StdSort) (mv : List Nat → List Nat) : Prop :=
  ∀ (f : ProgFiles) (t : TextFile) (d d' : Datas) (ans : Answer6), program8 P S mv f = .ok ans →
    loadDatas f.datas = .ok d → loadDatas t = .ok d' → d'.size = d.size → ∃ ans', program8 P S mv { f with datas := t } = .ok ans'

/-! ### The full statement is false -/

/-- A features file for the two letters of `notches`, with the features of the picture also for the turned one; `p` and `q` are the values
of the glyphs for the strategy by which they are sorted, `x` and `y` the percentages of their notches; all are 100. -/
def any8Datas (p q x y : String) : List Nat :=
  bytes ("2\n100 100 \n100 100 \n100 100 \n100 100 \n100 100 \n100 100 \n100 100 \n100 100 \n50 50 \n50 50 \n100 100 \n100 100 \n50 50 \n" ++
    "50 50 \n50 50 \n100 100 \n" ++ p ++ " " ++ q ++ " \n100 100 \n100 100 \n88 88 \n2 2 \n2 2 \n" ++
    "1 1 1 2 1 1 1 1 1 1 1 1 1 3 1 1 1 2 1 1 1 1 1 1 1 1 1 3 \n1 1 0 1 0 0 0 1 1 0 1 0 0 0 \n1 " ++ x ++ " 1 " ++ y ++ " \n")

/-- The line read after both letters were learnt as `c`. -/
def any8Demo (t : List Nat) : Res Answer6 :=
  program8 Ratio8 insertionSort (fun _ => []) ⟨some (writeGlyphs 128 [⟨ppm notches, some (bytes "c c"), bytes "font"⟩]).out, some t, ppm notches, none, none⟩

/-- With the same features for both glyphs the line is read, however great a value is; if one of the glyphs has another value than the other,
the behaviour is undefined. -/
theorem C117_rows : any8Demo (any8Datas "100" "100" "100" "100") = .ok ⟨bytes "c c ", bytes "c c ", bytes "cc"⟩ ∧
    any8Demo (any8Datas "110" "110" "100" "100") = .ok ⟨bytes "c c ", bytes "c c ", bytes "cc"⟩ ∧
    any8Demo (any8Datas "4294967295" "4294967295" "100" "100") = .ok ⟨bytes "_ _ ", bytes "_ _ ", bytes "_"⟩ ∧
    any8Demo (any8Datas "100" "101" "100" "100") = .ub := by
  refine ⟨by decide +kernel, by decide +kernel, by decide +kernel, by decide +kernel⟩

/-- A file that is cut off gives a table without values. A percentage can be so great that a sum wraps around, as in C113. -/
theorem C117_wrap : any8Demo (any8Datas "110" "110" "4294967195" "4294967195") = .ok ⟨bytes "c c ", bytes "c c ", bytes "cc"⟩ ∧
    any8Demo (any8Datas "110" "110" "4294967196" "4294967196") = .ub ∧
    any8Demo (any8Datas "110" "110" "4294967197" "4294967197") = .abort ∧
    any8Demo (bytes "2\n100 100 \n100 100 \n100 1") = .ub := by
  refine ⟨by decide +kernel, by decide +kernel, by decide +kernel, by decide +kernel⟩

theorem C117_false : ¬ C117_statement Ratio8 insertionSort (fun _ => []) := by
  intro h
  obtain ⟨h1, _, _, h2⟩ := C117_rows
  have e1 : loadDatas (some (any8Datas "100" "100" "100" "100")) = _ := loadDatas_eof (by decide +kernel)
  have e2 : loadDatas (some (any8Datas "100" "101" "100" "100")) = _ := loadDatas_eof (by decide +kernel)
  have e3 : (datasRead (IS.of (any8Datas "100" "101" "100" "100"))).1.size = (datasRead (IS.of (any8Datas "100" "100" "100" "100"))).1.size := by
    decide +kernel
  unfold any8Demo at h1 h2
  obtain ⟨ans', e⟩ := h _ (some (any8Datas "100" "101" "100" "100")) _ _ _ h1 e1 e2 e3
  have := h2.symm.trans e
  cases this

/-! ### What is true -/

/-- **C117**: features that are refused. -/
theorem C117_size (P : Type) [Prob8 P] (S : StdSort) (mv : List Nat → List Nat) (f : ProgFiles) (E : List FNode) (d : Datas) (gs : List LGlyph)
    (h1 : loadDict f.dict = .ok E) (h2 : loadDatas f.datas = .ok d) (h3 : loadLGlyphs f.glyphs = .ok gs) (hne : gs.length ≠ d.size) :
    program8 P S mv f = .throw := by
  unfold program8 tables8
  rw [h1, Res.ok_bind, h2, Res.ok_bind, h3, Res.ok_bind, if_pos hne]
  rfl

theorem words_ne {gs : List LGlyph} {ws : List Words} (hs : SameWords ws (gs.map glyphWords)) (hv : ∀ g ∈ gs, g.views ≠ []) : [] ∉ ws := by
  intro h0
  obtain ⟨k, hk⟩ := List.getElem?_of_mem h0
  obtain ⟨u, hu, eh, _⟩ := hs.get hk
  rw [List.getElem?_map] at hu
  obtain ⟨g, hg, rfl⟩ := Option.map_eq_some_iff.1 hu
  have := hv g (List.mem_of_getElem? hg)
  cases e : g.views with
  | nil => exact this e
  | cons v vs => simp [glyphWords, e] at eh

theorem words_nil {gs : List LGlyph} {ws : List Words} (hs : SameWords ws (gs.map glyphWords)) (hv : ∃ g ∈ gs, g.views = []) : [] ∈ ws := by
  obtain ⟨g, hg, hv⟩ := hv
  obtain ⟨k, hk⟩ := List.getElem?_of_mem hg
  have hu : (gs.map glyphWords)[k]? = some [] := by
    rw [List.getElem?_map, hk]
    simp [glyphWords, hv]
  obtain ⟨v, e, eh, hm⟩ := hs.symm.get hu
  cases v with
  | nil => exact List.mem_of_getElem? e
  | cons x v => cases eh

/-- **C117**: whatever the picture is, and whether or not there is one, the behaviour is undefined with two glyphs or more if a strategy has no
values, or if each glyph has words and, whichever is first in the order, the number of glyphs with other features is neither 0 nor 2. It is
also undefined if a glyph has no word and all have the same features. -/
theorem C117_undefined (P : Type) [Prob8 P] (S : StdSort) (mv : List Nat → List Nat) (f : ProgFiles) (E : List FNode) (d : Datas) (gs : List LGlyph)
    (h1 : loadDict f.dict = .ok E) (h2 : loadDatas f.datas = .ok d) (h3 : loadLGlyphs f.glyphs = .ok gs) (hsize : gs.length = d.size)
    (hn : gs.length < W32)
    (hbad : (¬ Whole d ∧ 1 < gs.length) ∨
      (Whole d ∧ 1 < gs.length ∧ (∀ g ∈ gs, g.views ≠ []) ∧
        ∀ i, Least d (.dvdirection, .img90) i → unlikeRows d i ≠ 0 ∧ unlikeRows d i ≠ 2) ∨
      (Whole d ∧ (∃ g ∈ gs, g.views = []) ∧ ∀ i j, i < gs.length → j < gs.length → row d.tables i = row d.tables j)) :
    program8 P S mv f = .ub := by
  obtain ⟨ws, ew, hsame⟩ := allWords_same gs
  have hlen : ws.length = d.size := by rw [hsame.len, List.length_map, hsize]
  have hlen' : ws.length = gs.length := by rw [hlen, hsize]
  have key : (do let p ← prepare8 S mv d ws; makeByWord p.words) = .ub → program8 P S mv f = .ub := by
    intro hk
    unfold program8 tables8
    rw [h1, Res.ok_bind, h2, Res.ok_bind, h3, Res.ok_bind, if_neg (by simpa using hsize), ew, Res.ok_bind]
    cases hp : prepare8 S mv d ws with
    | ok p =>
      rw [hp, Res.ok_bind] at hk
      rw [Res.ok_bind, hk]
      rfl
    | ub => rfl
    | throw => rw [hp] at hk; cases hk
    | abort => rw [hp] at hk; cases hk
    | diverge => rw [hp] at hk; cases hk
  apply key
  rcases hbad with ⟨hw, h1⟩ | ⟨hw, h1, hv, hu⟩ | ⟨hw, hv, hall⟩
  · rw [prepare8_ub S mv h2 hw hlen (by omega) (by omega)]
    rfl
  · obtain ⟨i, hi, _, hub⟩ := C83_exact_partial S mv d ws ((loadDatas_fits h2).2 hw) hlen (by omega) (by omega) (words_ne hsame hv)
    exact hub (hu i hi).1 (hu i hi).2
  · have hf := (loadDatas_fits h2).2 hw
    have hnil := words_nil hsame hv
    have hub : ∀ w : List Words, [] ∈ w → makeByWord (w.map some) = .ub := by
      intro w hw
      unfold makeByWord
      rw [collectFirst_ub _ _ _ (.inr (List.mem_map.2 ⟨[], hw, rfl⟩))]
      rfl
    by_cases h1 : 1 < ws.length
    · obtain ⟨idx, hp, ep⟩ := prepare8_same S mv hf hlen h1 (by omega) (by rw [← hsize]; exact hall)
      obtain ⟨w, ew, _, _, wp⟩ := C54_reindex [] idx ws (by rw [hlen]; exact hp)
      obtain ⟨cs, _, ec, _⟩ := columns6_ok hp d.tables hf.same
      rw [ep, ew, Res.ok_bind, ec, Res.ok_bind, Res.pure_eq, Res.ok_bind]
      exact hub w (wp.mem_iff.2 hnil)
    · unfold prepare8
      rw [if_neg h1, Res.ok_bind]
      exact hub ws hnil

/-- **C117**: `extract_text8` with any features file, any glyphs and any dictionary that are taken, if the features are whole, small and the
same for all glyphs, each glyph has a word and all words are spelled, and the dictionary does not leave its table. On any line, either it
prints for each letter the first word of some glyph, or `_`, and a text of the words of the glyphs, which is that of C87 for some
dictionary; or it divides by zero, and then some letter has a percentage 0, as some glyph has. Missing: three glyphs or more of which exactly
two have other features than the first; a single glyph with features that are not whole. -/
theorem C117_program_partial (P : Type) [LawfulProb8 P] (S : StdSort) (mv : List Nat → List Nat) (f : ProgFiles) (E : List FNode) (d : Datas)
    (gs : List LGlyph) (i : Image) (h1 : loadDict f.dict = .ok E) (h2 : loadDatas f.datas = .ok d) (h3 : loadLGlyphs f.glyphs = .ok gs)
    (h4 : loadImage f.image 128 = .ok i) (hsize : gs.length = d.size) (hn : gs.length < W32) (hwhole : Whole d) (hnw : NoWrap d)
    (hall : ∀ i j, i < gs.length → j < gs.length → row d.tables i = row d.tables j)
    (hv : ∀ g ∈ gs, g.views ≠ []) (hw : ∀ g ∈ gs, ∀ w ∈ glyphWords g, Spelled w) (hE : StaysInside E) (hi : LineImage i) :
    ∃ bs as, segment i = .ok bs ∧ Pictures i bs as ∧ as.length = bs.length ∧
      ((∃ (R : Image → Letter6) (cs : List (List (List Nat))) (dict : List (List Nat)),
        (∀ a ∈ as, Gives6 (gs.map glyphWords) (R a)) ∧ GoodWords cs ∧ cs.map (List.map encAll) = withGaps 0 bs (letterWords R [] as) ∧
        program8 P S mv f = .ok ⟨eachSpaced (fun a => (R a).r1) as, eachSpaced (fun a => (R a).r2) as,
          encAll (saying dict (cs.dropWhile isStop))⟩) ∨
      ((∃ a ∈ as, ¬ Divides d a) ∧ program8 P S mv f = .ub)) := by
  obtain ⟨ws, ew, hsame⟩ := allWords_same gs
  have hlen : ws.length = d.size := by rw [hsame.len, List.length_map, hsize]
  have hne := words_ne hsame hv
  obtain ⟨p, bw, t, e3, e4, e5, pw, ebw, eb, hf, es, hbp⟩ := tab8_any S mv ((loadDatas_fits h2).2 hwhole) hlen hne (by omega)
    (by rw [← hsize]; exact hall)
  have htl : t.datas.size = t.words.length := by rw [es, pw.length_eq, hlen]
  have hprog : program8 P S mv f = extract6 (computeLetter8 P S t) E i := by
    unfold program8 tables8
    rw [h1, Res.ok_bind, h2, Res.ok_bind, h3, Res.ok_bind, if_neg (by simpa using hsize), ew, Res.ok_bind, e3, Res.ok_bind, e4,
      Res.ok_bind, Res.pure_eq, Res.ok_bind]
    simp only []
    rw [e5, Res.ok_bind, h4, Res.ok_bind]
  have hgiv : ∀ v ∈ t.words, ∃ u ∈ gs.map glyphWords, v.head? = u.head? ∧ ∀ x, x ∈ v ↔ x ∈ u := by
    intro v hv
    obtain ⟨k, hk⟩ := List.getElem?_of_mem (pw.mem_iff.1 hv)
    obtain ⟨u, hu, eh, hm⟩ := hsame.get hk
    exact ⟨u, List.mem_of_getElem? hu, eh, hm⟩
  obtain ⟨bs, as, hseg, hp, hal, hres⟩ := line6_run (F := computeLetter8 P S t) (Rd := fun _ => Gives6 (gs.map glyphWords))
    (Jm := fun a => ¬ Divides d a) hi (fun _ _ h => h.head) (by
      intro a r ha har
      rcases letter8_any (P := P) S (by rw [← htl]; exact fits_tabs hf) htl (by rw [ebw]; exact eb) (fun h0 => hne (pw.mem_iff.1 h0))
        (by rw [← htl, es]; omega) (fun y hy => hnw y (hbp y hy)) ha har with ⟨o, ho, h⟩ | ⟨ho, h⟩
      · exact .inl ⟨o, ho, Gives6.same hgiv h⟩
      · exact .inr ⟨ho, fun hd => h (Divides.sub hbp hd)⟩)
  refine ⟨bs, as, hseg, hp, hal, ?_⟩
  rcases hres with ⟨R, l, hR, hloop, f1, f2, f3⟩ | ⟨hj, hub⟩
  · left
    have hspell : ∀ c ∈ l.amb, ∀ w ∈ c, Spelled w := by
      have h95 : Spelled [95] := ⟨[95], by decide, fun x hx => by rw [List.mem_singleton.1 hx]; decide, by decide⟩
      have hamb : ∀ a ∈ as, ∀ w ∈ (R a).amb, Spelled w := by
        intro a ha w hwm
        obtain ⟨v, hv, hwv⟩ := (hR a ha).words w hwm
        obtain ⟨gl, hgl, rfl⟩ := List.mem_map.1 hv
        exact hw gl hgl w hwv
      intro c hc w hwc
      rw [f1] at hc
      rcases withGaps_mem _ _ _ _ hc with rfl | hc
      · rw [List.mem_singleton.1 hwc]
        exact ⟨[32], by decide, fun x hx => by rw [List.mem_singleton.1 hx]; decide, by decide⟩
      · obtain ⟨a, ha, rfl | rfl⟩ := letterWords_mem R as [] c hc
        · exact hamb a ha w hwc
        · by_cases h0 : (R a).amb = []
          · rw [((hR a ha).unread h0).1] at hwc
            rw [List.mem_singleton.1 hwc]; exact h95
          · rw [((hR a ha).read h0).1] at hwc
            exact hamb a ha w hwc
    obtain ⟨cs, hgood, hcs⟩ := spelled_lists l.amb hspell
    obtain ⟨dict, hd⟩ := searchesOn_of_inside hE (cs.dropWhile isStop).flatten (cs.dropWhile isStop).length
    refine ⟨R, cs, dict, hR, hgood, hcs.trans f1, ?_⟩
    rw [hprog]
    unfold extract6
    rw [hloop, Res.ok_bind, ← hcs, text6_searched cs hd hgood, Res.ok_bind, f2, f3]
    rfl
  · right
    refine ⟨hj, ?_⟩
    rw [hprog]
    unfold extract6
    rw [hub]
    rfl

/-- What is asked of the features: the file with 110 is whole and small, with the same rows. -/
example : ∃ d, loadDatas (some (any8Datas "110" "110" "100" "100")) = .ok d ∧ d.size = 2 ∧ Whole d ∧ NoWrap d ∧
    ∀ i j, i < 2 → j < 2 → row d.tables i = row d.tables j := by
  have w1 : ∀ t ∈ (datasRead (IS.of (any8Datas "110" "110" "100" "100"))).1.tables,
    t.vals.length = (datasRead (IS.of (any8Datas "110" "110" "100" "100"))).1.size := by decide +kernel
  refine ⟨_, loadDatas_eof (by decide +kernel), by decide +kernel, w1, ?_, ?_⟩
  · have h : ∀ t ∈ (datasRead (IS.of (any8Datas "110" "110" "100" "100"))).1.tables, t.strat = (.propZone, .img) →
      ∀ v ∈ t.vals, ∀ y ∈ v.toArr, y ≤ 100 := by decide +kernel
    rintro y ⟨t, ht, et, l, hl, hy⟩
    have : y ≤ 100 := h t ht et _ hl y hy
    omega
  · have h : ∀ i < 2, ∀ j < 2, row (datasRead (IS.of (any8Datas "110" "110" "100" "100"))).1.tables i =
      row (datasRead (IS.of (any8Datas "110" "110" "100" "100"))).1.tables j := by decide +kernel
    exact fun i j hi hj => h i hi j hj

/-- In the file with 100 and 101 one glyph is unlike the other, whichever comes first. -/
example : ∃ d, loadDatas (some (any8Datas "100" "101" "100" "100")) = .ok d ∧ d.size = 2 ∧ Whole d ∧ unlikeRows d 0 = 1 ∧ unlikeRows d 1 = 1 := by
  have w2 : ∀ t ∈ (datasRead (IS.of (any8Datas "100" "101" "100" "100"))).1.tables,
    t.vals.length = (datasRead (IS.of (any8Datas "100" "101" "100" "100"))).1.size := by decide +kernel
  exact ⟨_, loadDatas_eof (by decide +kernel), by decide +kernel, w2, by decide +kernel, by decide +kernel⟩

end Ppocr.Props

import Verif.Props.AnyDatas
import Verif.Props.Line6
import Verif.Proofs.AnyDatas6

/-! # Any features file for `extract_text6` (C116) -/

namespace Ppocr.Props
open Ppocr Spec

/-- **C116**, full statement: a line that `extract_text6` reads with one features file is read with any other that the program takes, with
as many entries. -/
def C116_statement (S : StdSort) : Prop :=
  ∀ (f : ProgFiles) (t : TextFile) (d d' : Datas) (ans : Answer6), program6 S f = .ok ans →
    loadDatas f.datas = .ok d → loadDatas t = .ok d' → d'.size = d.size → ∃ ans', program6 S { f with datas := t } = .ok ans'

/-! ### The full statement is false -/

/-- A features file for the two letters of `notches`, with the features of the picture also for the turned one; `p` is the value of both
glyphs for the strategy that makes the categories, `q` the percentage of the notch of the first glyph; both are 100. -/
def any6Datas (p q : String) : List Nat :=
  bytes ("2\n100 100 \n100 100 \n100 100 \n100 100 \n100 100 \n100 100 \n100 100 \n100 100 \n50 50 \n50 50 \n100 100 \n100 100 \n50 50 \n" ++
    "50 50 \n50 50 \n100 100 \n" ++ p ++ " " ++ p ++ " \n100 100 \n100 100 \n88 88 \n2 2 \n2 2 \n" ++
    "1 1 1 2 1 1 1 1 1 1 1 1 1 3 1 1 1 2 1 1 1 1 1 1 1 1 1 3 \n1 1 0 1 0 0 0 1 1 0 1 0 0 0 \n1 " ++ q ++ " 1 100 \n")

/-- The line read after both letters were learnt as `c`. -/
def any6Demo (t : List Nat) : Res Answer6 :=
  program6 insertionSort ⟨some (writeGlyphs 128 [⟨ppm notches, some (bytes "c c"), bytes "font"⟩]).out, some t, ppm notches, none, none⟩

/-- With 100 both glyphs look exactly like the letters; with 110 they are candidates, with 209 not; with 210 the category is behind the last
one, and the program writes outside of its table. -/
theorem C116_category : any6Demo (any6Datas "100" "100") = .ok ⟨bytes "c c ", bytes "c c ", bytes "cc"⟩ ∧
    any6Demo (any6Datas "110" "100") = .ok ⟨bytes "c c ", bytes "c c ", bytes "cc"⟩ ∧
    any6Demo (any6Datas "209" "100") = .ok ⟨bytes "_ _ ", bytes "_ _ ", bytes "_"⟩ ∧
    any6Demo (any6Datas "210" "100") = .ub := by
  refine ⟨by decide +kernel, by decide +kernel, by decide +kernel, by decide +kernel⟩

/-- With 110 the percentage is used, and there is what C113 says of it. A file that is cut off gives a table without values. -/
theorem C116_wrap : any6Demo (any6Datas "110" "4294967195") = .ok ⟨bytes "c c ", bytes "c c ", bytes "cc"⟩ ∧
    any6Demo (any6Datas "110" "4294967196") = .ub ∧ any6Demo (any6Datas "110" "4294967197") = .abort ∧
    any6Demo (bytes "2\n100 100 \n100 100 \n100 1") = .ub := by
  refine ⟨by decide +kernel, by decide +kernel, by decide +kernel, by decide +kernel⟩

theorem C116_false : ¬ C116_statement insertionSort := by
  intro h
  obtain ⟨_, _, h1, h2⟩ := C116_category
  have e1 : loadDatas (some (any6Datas "209" "100")) = _ := loadDatas_eof (by decide +kernel)
  have e2 : loadDatas (some (any6Datas "210" "100")) = _ := loadDatas_eof (by decide +kernel)
  have e3 : (datasRead (IS.of (any6Datas "210" "100"))).1.size = (datasRead (IS.of (any6Datas "209" "100"))).1.size := by decide +kernel
  unfold any6Demo at h1 h2
  obtain ⟨ans', e⟩ := h _ (some (any6Datas "210" "100")) _ _ _ h1 e1 e2 e3
  have := h2.symm.trans e
  cases this

/-! ### What is true -/

theorem col_mem_iff {d : Datas} (h : d.tables.map Table.strat = registered) (hs : ∀ t ∈ d.tables, ∀ v ∈ t.vals, Shaped t.strat.1.shape v) {x : Nat} :
    x ∈ d.col strategy1 ↔ ∃ t ∈ d.tables, t.strat = (.dvdirection, .img90) ∧ Value.num x ∈ t.vals := by
  obtain ⟨t, ht, et, ev⟩ := get_any h (s := strategy1) (by decide)
  unfold Datas.col
  rw [ev, List.mem_map]
  constructor
  · rintro ⟨v, hv, rfl⟩
    obtain ⟨n, rfl⟩ : ∃ n, v = .num n := by
      have := hs t ht v hv
      rw [et] at this
      exact this
    exact ⟨t, ht, et, hv⟩
  · rintro ⟨u, hu, eu, hx⟩
    refine ⟨.num x, ?_, rfl⟩
    have : t = u := strat_inj (by rw [h]; decide) ht hu (et.trans eu.symm)
    rw [this]; exact hx

/-- **C116**: features that are refused. -/
theorem C116_size (S : StdSort) (f : ProgFiles) (E : List FNode) (d : Datas) (gs : List LGlyph) (h1 : loadDict f.dict = .ok E)
    (h2 : loadDatas f.datas = .ok d) (h3 : loadLGlyphs f.glyphs = .ok gs) (hne : gs.length ≠ d.size) : program6 S f = .throw := by
  unfold program6
  rw [h1, Res.ok_bind, h2, Res.ok_bind, h3, Res.ok_bind, if_pos hne]

/-- **C116**: whatever the picture is, and whether or not there is one, the behaviour is undefined if a strategy has no values (they are all
or none there), if a glyph is behind the last category or if it has no word. -/
theorem C116_undefined (S : StdSort) (f : ProgFiles) (E : List FNode) (d : Datas) (gs : List LGlyph) (h1 : loadDict f.dict = .ok E)
    (h2 : loadDatas f.datas = .ok d) (h3 : loadLGlyphs f.glyphs = .ok gs) (hsize : gs.length = d.size) (hn : gs.length + 63 < W32)
    (hbad : ¬ Whole d ∨ ¬ InCategories d ∨ ∃ g ∈ gs, g.views = []) : program6 S f = .ub := by
  obtain ⟨ws, ew, hsame⟩ := allWords_same gs
  have hlen : ws.length = d.size := by rw [hsame.len, List.length_map, hsize]
  obtain ⟨hstr, hshape⟩ := loadDatas_shaped h2
  unfold program6
  rw [h1, Res.ok_bind, h2, Res.ok_bind, h3, Res.ok_bind, if_neg (by simpa using hsize), ew, Res.ok_bind]
  by_cases hw : Whole d
  · obtain ⟨ws', d', eo, pw, hf, es, pc, _⟩ := order6_any S ((loadDatas_fits h2).2 hw) hlen (by omega)
    rw [eo, Res.ok_bind]
    have : build6 d' ws' = .ub := by
      rcases hbad with hb | hb | ⟨g, hg, hv⟩
      · exact absurd hw hb
      · refine build6_ub ?_ ?_
        · rw [pc.length_eq]
          have := (tabs_of h2 hw).len strategy1 (by decide)
          unfold Datas.col
          rw [List.length_map, this]
          omega
        · have : ∃ x ∈ d.col strategy1, 210 ≤ x := Classical.byContradiction fun hn => hb (by
            intro t ht et n hmem
            refine Classical.byContradiction fun hlt => hn ⟨n, (col_mem_iff hstr hshape).2 ⟨t, ht, et, hmem⟩, by omega⟩)
          obtain ⟨x, hx, h210⟩ := this
          exact ⟨x, pc.mem_iff.2 hx, by omega⟩
      · refine build6_empty (pw.mem_iff.2 ?_)
        obtain ⟨k, hk⟩ := List.getElem?_of_mem hg
        have hu : (gs.map glyphWords)[k]? = some [] := by
          rw [List.getElem?_map, hk]
          simp [glyphWords, hv]
        obtain ⟨v, e, eh, hm⟩ := hsame.symm.get hu
        cases v with
        | nil => exact List.mem_of_getElem? e
        | cons x v => cases eh
    simp only [this]
    rfl
  · rw [order6_ub S h2 hw hlen (by omega)]
    rfl

theorem Gives6.same {ws us : List Words} {o : Letter6} (hs : ∀ v ∈ ws, ∃ u ∈ us, v.head? = u.head? ∧ ∀ x, x ∈ v ↔ x ∈ u)
    (h : Gives6 ws o) : Gives6 us o := by
  refine ⟨?_, h.read, h.unread, ?_⟩
  · intro w hw
    obtain ⟨v, hv, hwv⟩ := h.words w hw
    obtain ⟨u, hu, _, hm⟩ := hs v hv
    exact ⟨u, hu, (hm w).1 hwv⟩
  · rcases h.first with ⟨v, hv, e⟩ | e
    · obtain ⟨u, hu, eh, _⟩ := hs v hv
      exact .inl ⟨u, hu, by rw [← eh]; exact e⟩
    · exact .inr e

theorem Divides.sub {d d' : Datas} (h : ∀ y, BorderPart d' y → BorderPart d y) {a : Image} (hd : Divides d a) : Divides d' a := by
  rcases hd with hd | hd
  · exact .inl fun y hy => hd y (h y hy)
  · exact .inr hd

/-- **C116**: `extract_text6` with any features file, any glyphs and any dictionary that are taken, if the features are whole, in the
categories and small, each glyph has a word and all words are spelled, and the dictionary does not leave its table. On any line, either it
prints for each letter the first word of some glyph, or `_`, and a text of the words of the glyphs, which is that of C87 for some
dictionary; or it divides by zero, and then some letter has a percentage 0, as some glyph has. -/
theorem C116_program_partial (S : StdSort) (f : ProgFiles) (E : List FNode) (d : Datas) (gs : List LGlyph) (i : Image)
    (h1 : loadDict f.dict = .ok E) (h2 : loadDatas f.datas = .ok d) (h3 : loadLGlyphs f.glyphs = .ok gs)
    (h4 : loadImage f.image 128 = .ok i) (hsize : gs.length = d.size) (hn : gs.length + 63 < W32) (hwhole : Whole d)
    (hcat : InCategories d) (hnw : NoWrap d) (hv : ∀ g ∈ gs, g.views ≠ []) (hw : ∀ g ∈ gs, ∀ w ∈ glyphWords g, Spelled w)
    (hE : StaysInside E) (hi : LineImage i) :
    ∃ bs as, segment i = .ok bs ∧ Pictures i bs as ∧ as.length = bs.length ∧
      ((∃ (R : Image → Letter6) (cs : List (List (List Nat))) (dict : List (List Nat)),
        (∀ a ∈ as, Gives6 (gs.map glyphWords) (R a)) ∧ GoodWords cs ∧ cs.map (List.map encAll) = withGaps 0 bs (letterWords R [] as) ∧
        program6 S f = .ok ⟨eachSpaced (fun a => (R a).r1) as, eachSpaced (fun a => (R a).r2) as, encAll (saying dict (cs.dropWhile isStop))⟩) ∨
      ((∃ a ∈ as, ¬ Divides d a) ∧ program6 S f = .ub)) := by
  obtain ⟨ws, ew, hsame⟩ := allWords_same gs
  have hlen : ws.length = d.size := by rw [hsame.len, List.length_map, hsize]
  obtain ⟨hstr, hshape⟩ := loadDatas_shaped h2
  obtain ⟨ws', d', eo, pw, hf, es, pc, hsort, hbp⟩ := order6_any S ((loadDatas_fits h2).2 hwhole) hlen (by omega)
  have hlen' : ws'.length = d'.size := by rw [pw.length_eq, hlen, es]
  have htabs : Tabs d' ws'.length := by rw [hlen']; exact fits_tabs hf
  have hcl : ∀ s ∈ simpleStrats, (d'.col s).length = ws'.length ∧ ∀ x ∈ d'.col s, x < W32 := by
    intro s hs
    rw [hlen']
    exact fits_col hf hs
  have hne : [] ∉ ws' := by
    intro h0
    obtain ⟨k, hk⟩ := List.getElem?_of_mem (pw.mem_iff.1 h0)
    obtain ⟨u, hu, eh, _⟩ := hsame.get hk
    rw [List.getElem?_map] at hu
    obtain ⟨g, hg, rfl⟩ := Option.map_eq_some_iff.1 hu
    have := hv g (List.mem_of_getElem? hg)
    cases e : g.views with
    | nil => exact this e
    | cons v vs => simp [glyphWords, e] at eh
  have hcols : Cols6 d' ws'.length := ⟨by omega, fun s hs => (hcl s hs).1, fun s hs => (hcl s hs).2, hsort⟩
  obtain ⟨t, et, hb⟩ := build6_ok (ws := ws') hcols.small hcols.len hcols.lt (by
    intro x hx
    obtain ⟨u, hu, eu, hm⟩ := (col_mem_iff hstr hshape).1 (pc.mem_iff.1 hx)
    have := hcat u hu eu x hm
    omega) hne
  have hprog : program6 S f = extract6 (computeLetter6 S t) E i := by
    unfold program6
    rw [h1, Res.ok_bind, h2, Res.ok_bind, h3, Res.ok_bind, if_neg (by simpa using hsize), ew, Res.ok_bind, eo, Res.ok_bind]
    simp only [et, Res.ok_bind, h4]
  have hgiv : ∀ v ∈ ws', ∃ u ∈ gs.map glyphWords, v.head? = u.head? ∧ ∀ x, x ∈ v ↔ x ∈ u := by
    intro v hv
    obtain ⟨k, hk⟩ := List.getElem?_of_mem (pw.mem_iff.1 hv)
    obtain ⟨u, hu, eh, hm⟩ := hsame.get hk
    exact ⟨u, List.mem_of_getElem? hu, eh, hm⟩
  obtain ⟨bs, as, hseg, hp, hal, hres⟩ := line6_run (F := computeLetter6 S t) (Rd := fun _ => Gives6 (gs.map glyphWords))
    (Jm := fun a => ¬ Divides d a) hi (fun _ _ h => h.head) (by
      intro a r ha har
      rcases letter6_any S htabs hcols hb hne (fun y hy => hnw y (hbp y hy)) ha har with ⟨o, ho, h⟩ | ⟨ho, h⟩
      · exact .inl ⟨o, ho, Gives6.same hgiv h⟩
      · exact .inr ⟨ho, fun hd => h (Divides.sub hbp hd)⟩)
  refine ⟨bs, as, hseg, hp, hal, ?_⟩
  rcases hres with ⟨R, l, hR, hloop, f1, f2, f3⟩ | ⟨hj, hub⟩
  · left
    have hspell : ∀ c ∈ l.amb, ∀ w ∈ c, Spelled w := by
      have h95 : Spelled [95] := ⟨[95], by decide, fun x hx => by rw [List.mem_singleton.1 hx]; decide, by decide⟩
      have hamb : ∀ a ∈ as, ∀ w ∈ (R a).amb, Spelled w := by
        intro a ha w hwm
        obtain ⟨v, hv, hwv⟩ := (hR a ha).words w hwm
        obtain ⟨gl, hgl, rfl⟩ := List.mem_map.1 hv
        exact hw gl hgl w hwv
      intro c hc w hwc
      rw [f1] at hc
      rcases withGaps_mem _ _ _ _ hc with rfl | hc
      · rw [List.mem_singleton.1 hwc]
        exact ⟨[32], by decide, fun x hx => by rw [List.mem_singleton.1 hx]; decide, by decide⟩
      · obtain ⟨a, ha, rfl | rfl⟩ := letterWords_mem R as [] c hc
        · exact hamb a ha w hwc
        · by_cases h0 : (R a).amb = []
          · rw [((hR a ha).unread h0).1] at hwc
            rw [List.mem_singleton.1 hwc]; exact h95
          · rw [((hR a ha).read h0).1] at hwc
            exact hamb a ha w hwc
    obtain ⟨cs, hgood, hcs⟩ := spelled_lists l.amb hspell
    obtain ⟨dict, hd⟩ := searchesOn_of_inside hE (cs.dropWhile isStop).flatten (cs.dropWhile isStop).length
    refine ⟨R, cs, dict, hR, hgood, hcs.trans f1, ?_⟩
    rw [hprog]
    unfold extract6
    rw [hloop, Res.ok_bind, ← hcs, text6_searched cs hd hgood, Res.ok_bind, f2, f3]
    rfl
  · right
    refine ⟨hj, ?_⟩
    rw [hprog]
    unfold extract6
    rw [hub]
    rfl

/-- What is asked of the features: the file with 110 is whole, in the categories and small; the one with 210 is not in the categories; the one
that was cut off is not whole. -/
example : (∃ d, loadDatas (some (any6Datas "110" "100")) = .ok d ∧ d.size = 2 ∧ Whole d ∧ InCategories d ∧ NoWrap d) ∧
    (∃ d, loadDatas (some (any6Datas "210" "100")) = .ok d ∧ d.size = 2 ∧ Whole d ∧ ¬ InCategories d) ∧
    (∃ d, loadDatas (some (bytes "2\n100 100 \n100 100 \n100 1")) = .ok d ∧ d.size = 2 ∧ ¬ Whole d) := by
  have w1 : ∀ t ∈ (datasRead (IS.of (any6Datas "110" "100"))).1.tables, t.vals.length = (datasRead (IS.of (any6Datas "110" "100"))).1.size := by
    decide +kernel
  have w2 : ∀ t ∈ (datasRead (IS.of (any6Datas "210" "100"))).1.tables, t.vals.length = (datasRead (IS.of (any6Datas "210" "100"))).1.size := by
    decide +kernel
  refine ⟨⟨_, loadDatas_eof (by decide +kernel), by decide +kernel, w1, ?_, ?_⟩, ⟨_, loadDatas_eof (by decide +kernel), by decide +kernel, w2, ?_⟩,
    ⟨_, loadDatas_eof (by decide +kernel), by decide +kernel, ?_⟩⟩
  · have h : ∀ t ∈ (datasRead (IS.of (any6Datas "110" "100"))).1.tables, t.strat = (.dvdirection, .img90) → ∀ v ∈ t.vals, v.toNum < 210 := by
      decide +kernel
    exact fun t ht et n hn => h t ht et _ hn
  · have h : ∀ t ∈ (datasRead (IS.of (any6Datas "110" "100"))).1.tables, t.strat = (.propZone, .img) → ∀ v ∈ t.vals, ∀ y ∈ v.toArr, y ≤ 100 := by
      decide +kernel
    rintro y ⟨t, ht, et, l, hl, hy⟩
    have : y ≤ 100 := h t ht et _ hl y hy
    omega
  · intro h
    have : Table.mk (.dvdirection, .img90) [.num 210, .num 210] ∈ (datasRead (IS.of (any6Datas "210" "100"))).1.tables := by decide +kernel
    have := h _ this rfl 210 (by decide)
    omega
  · intro h
    have : ∀ t ∈ (datasRead (IS.of (bytes "2\n100 100 \n100 100 \n100 1"))).1.tables,
      t.vals.length = (datasRead (IS.of (bytes "2\n100 100 \n100 100 \n100 1"))).1.size := h
    revert this
    decide +kernel

end Ppocr.Props

import Verif.Proofs.More6
import Verif.Props.Letter8

/-! # C106, C107: the order in which letters were learnt, and further letters, in `extract_text6` -/

namespace Ppocr.Props
open Ppocr Spec

/-- The files hold the glyphs `gs` and their datas, as the learning tools write them. -/
structure Taught6 (f : ProgFiles) (gs : List LGlyph) : Prop where
  good : ∀ g ∈ gs, g.Good
  views : ∀ g ∈ gs, g.views ≠ []
  sized : ∀ g ∈ gs, Sized g.img
  few : gs.length + 63 < W32
  files : ∃ d tg, Datas.empty.loadAll (gs.map LGlyph.img) = .ok d ∧ glyphsWrite gs = .ok tg ∧ f.glyphs = some tg ∧ f.datas = some (datasWrite d)

/-- `P` holds of the picture of every letter of the line. -/
def EachLetter (i : Image) (P : Image → Prop) : Prop := ∀ bs as, segment i = .ok bs → Pictures i bs as → ∀ a ∈ as, P a

/-- The words of a glyph as the program uses them. -/
def usedWords (g : LGlyph) : Words := valueOr [] (uniqueWords g)

theorem allWords_used : ∀ gs : List LGlyph, allWords gs = .ok (gs.map usedWords)
  | [] => rfl
  | g :: gs => by
    obtain ⟨w, e, _⟩ := uniqueWords_same g
    rw [allWords, e, Res.ok_bind, allWords_used gs, Res.ok_bind, List.map_cons, usedWords, e]
    rfl

theorem usedWords_head (g : LGlyph) : (usedWords g).head? = (glyphWords g).head? := by
  obtain ⟨w, e, h, _⟩ := uniqueWords_same g
  rw [usedWords, e]
  exact h

/-- What the program makes of the letters. -/
theorem Taught6.letters {f : ProgFiles} {gs : List LGlyph} (h : Taught6 f gs) (S : StdSort) :
    ∃ t : Tab6, (∀ image dict i E, loadImage image 128 = .ok i → loadDict dict = .ok E →
        program6 S { f with image := image, dict := dict } = extract6 (computeLetter6 S t) E i) ∧
      ∀ a r, Sized a → a.rotate90 = .ok r →
        (∃ o, computeLetter6 S t a r = .ok o ∧ Reads6 (gs.map LGlyph.img) (gs.map glyphWords) a o ∧
          ReadBy (FlagSortedBy S) (gs.map LGlyph.img) (gs.map usedWords) a o) ∨
        (computeLetter6 S t a r = .ub ∧ Jam6 (gs.map LGlyph.img) (gs.map glyphWords) a) := by
  obtain ⟨d, tg, hd, ht, hfg, hfd⟩ := h.files
  obtain ⟨ws, idx, imgs', ws', d', t, ew, hsame, hm, hr, hprog⟩ := program6_ready S f gs d tg h.good h.views h.sized h.few hd ht hfg hfd
  rw [allWords_used, Res.ok.injEq] at ew
  subst ew
  refine ⟨t, hprog, ?_⟩
  intro a r ha har
  rcases letter6_run S hr ha har with ⟨o, ho, h⟩ | ⟨ho, h⟩
  · exact .inl ⟨o, ho, hsame.reads (hm.reads h), hm.readBy (letter6_sorted S hr ha har ho)⟩
  · exact .inr ⟨ho, hsame.jam (hm.jam h)⟩

/-- What the program makes of the line: the text is put together from the candidates. -/
theorem Taught6.run {f : ProgFiles} {gs : List LGlyph} (h : Taught6 f gs) (S : StdSort) {E : List FNode} (hE : loadDict f.dict = .ok E)
    {i : Image} (himg : loadImage f.image 128 = .ok i) (hi : LineImage i)
    (hj : EachLetter i fun a => ¬ Jam6 (gs.map LGlyph.img) (gs.map glyphWords) a) :
    ∃ bs as R, segment i = .ok bs ∧ Pictures i bs as ∧
      (∀ a ∈ as, Reads6 (gs.map LGlyph.img) (gs.map glyphWords) a (R a) ∧
        ReadBy (FlagSortedBy S) (gs.map LGlyph.img) (gs.map usedWords) a (R a)) ∧
      program6 S f = (text6 E (withGaps 0 bs (letterWords R [] as))).bind fun r =>
        .ok ⟨eachSpaced (fun a => (R a).r1) as, eachSpaced (fun a => (R a).r2) as, r⟩ := by
  obtain ⟨t, hprog, hlet⟩ := h.letters S
  obtain ⟨bs, as, e, hp, _, hres⟩ := line6_run (F := computeLetter6 S t)
    (Rd := fun a o => Reads6 (gs.map LGlyph.img) (gs.map glyphWords) a o ∧
      ReadBy (FlagSortedBy S) (gs.map LGlyph.img) (gs.map usedWords) a o)
    (Jm := Jam6 (gs.map LGlyph.img) (gs.map glyphWords)) hi (fun _ _ h => reads_head h.1) hlet
  rcases hres with ⟨R, l, hRd, hloop, f1, f2, f3⟩ | ⟨⟨a, ha, hja⟩, _⟩
  · refine ⟨bs, as, R, e, hp, hRd, ?_⟩
    rw [show program6 S f = _ from hprog f.image f.dict i E himg hE]
    unfold extract6
    rw [hloop, Res.ok_bind, f1, f2, f3]
    rfl
  · exact absurd hja (hj bs as e hp a ha)

/-- Two sets of glyphs that give the same reading for each letter of the line. -/
theorem same_of_letters {S S' : StdSort} {f f' : ProgFiles} {gs gs' : List LGlyph} (h : Taught6 f gs)
    (h' : Taught6 f' gs') (hfi : f'.image = f.image) (hfd : f'.dict = f.dict) {E : List FNode} (hE : loadDict f.dict = .ok E) {i : Image}
    (himg : loadImage f.image 128 = .ok i) (hi : LineImage i)
    (hj : EachLetter i fun a => ¬ Jam6 (gs.map LGlyph.img) (gs.map glyphWords) a)
    (hj' : EachLetter i fun a => ¬ Jam6 (gs'.map LGlyph.img) (gs'.map glyphWords) a)
    (hR : EachLetter i fun a => ∀ o o', ReadBy (FlagSortedBy S) (gs.map LGlyph.img) (gs.map usedWords) a o →
      ReadBy (FlagSortedBy S') (gs'.map LGlyph.img) (gs'.map usedWords) a o' → o' = o) :
    program6 S' f' = program6 S f := by
  obtain ⟨bs, as, R, e, hp, hRd, hprog⟩ := h.run S hE himg hi hj
  obtain ⟨bs', as', R', e', hp', hRd', hprog'⟩ := h'.run S' (by rw [hfd]; exact hE) (by rw [hfi]; exact himg) hi hj'
  rw [e, Res.ok.injEq] at e'
  subst e'
  have := pictures_unique hp hp'
  subst this
  have hRR : ∀ a ∈ as, R' a = R a := fun a ha => hR bs as e hp a ha _ _ (hRd a ha).2 (hRd' a ha).2
  have h1 : eachSpaced (fun a => (R' a).r1) as = eachSpaced (fun a => (R a).r1) as := eachSpaced_eq fun a ha => by rw [hRR a ha]
  have h2 : eachSpaced (fun a => (R' a).r2) as = eachSpaced (fun a => (R a).r2) as := eachSpaced_eq fun a ha => by rw [hRR a ha]
  rw [hprog, hprog', letterWords_eq R' R as [] hRR, h1, h2]

/-! ## C106: the order -/

theorem used_of_words {gs gs' : List LGlyph} (h : gs'.map glyphWords = gs.map glyphWords) : gs'.map usedWords = gs.map usedWords := by
  have key : ∀ l : List LGlyph, l.map usedWords = (l.map glyphWords).map fun v => valueOr [] (uniqueBy (fun a b => .ok (decide (a = b))) v) := by
    intro l
    rw [List.map_map]
    rfl
  rw [key, key, h]

/-- **C106**: `extract_text6` on the files for the same pictures and words in another order prints the same three results, with the
same dictionary, the same line and the same `std::sort`, as long as no letter can make it divide by zero (C85). The fonts and the
positions in the glyph file do not matter. -/
theorem C106_order (S : StdSort) (hS : ByComparison S) (f f' : ProgFiles) (gs gs' : List LGlyph) (h : Taught6 f gs) (h' : Taught6 f' gs')
    (hp : (gs'.map pictured).Perm (gs.map pictured)) (hfi : f'.image = f.image) (hfd : f'.dict = f.dict) (E : List FNode)
    (hE : loadDict f.dict = .ok E) (i : Image) (himg : loadImage f.image 128 = .ok i) (hi : LineImage i)
    (hj : EachLetter i fun a => ¬ Jam6 (gs.map LGlyph.img) (gs.map glyphWords) a) :
    program6 S f' = program6 S f := by
  obtain ⟨gs'', hp, e1, e2⟩ := pictured_perm hp
  refine same_of_letters h h' hfi hfd hE himg hi hj ?_ ?_
  · intro bs as e hpic a ha hja
    obtain ⟨idx, m⟩ := perm_moved hp glyphWords
    rw [e1, e2] at hja
    exact hj bs as e hpic a ha (m.jam hja)
  · intro bs as e hpic a ha o o' ho ho'
    have ho : Read6 S _ _ a o := ho.mono fun _ _ q => q.natural hS
    have ho' : Read6 S _ _ a o' := ho'.mono fun _ _ q => q.natural hS
    obtain ⟨idx, m⟩ := perm_moved hp usedWords
    rw [e1, used_of_words e2] at ho'
    exact (m.read ho').unique ho (by simp) (fun _ => Iff.rfl) (fun _ => Iff.rfl) Iff.rfl fun _ => Iff.rfl

/-! ## C107: further letters -/

/-- Full statement of **C107**: glyphs that are not near to any letter of the line do not change what `extract_text6` prints. -/
def C107_statement : Prop :=
  ∀ (S : StdSort) (f f' : ProgFiles) (gs more gs' : List LGlyph) (E : List FNode) (i : Image), ByComparison S → Taught6 f gs →
    Taught6 f' gs' → gs'.Perm (gs ++ more) → f'.image = f.image → f'.dict = f.dict → loadDict f.dict = .ok E →
    loadImage f.image 128 = .ok i → LineImage i → EachLetter i (fun a => ¬ Jam6 (gs.map LGlyph.img) (gs.map glyphWords) a) →
    EachLetter i (fun a => ∀ g ∈ more, ¬ Near6 g.img a) → program6 S f' = program6 S f

/-- **C107**, partial: it is so if no further glyph has the first word of one that was there. Missing: the others, which the
program asks for their zones, see `C107_false`. -/
theorem C107_more_partial (S : StdSort) (f f' : ProgFiles) (gs more gs' : List LGlyph) (E : List FNode) (i : Image) (hS : ByComparison S)
    (h : Taught6 f gs) (h' : Taught6 f' gs') (hp : gs'.Perm (gs ++ more)) (hfi : f'.image = f.image) (hfd : f'.dict = f.dict)
    (hE : loadDict f.dict = .ok E) (himg : loadImage f.image 128 = .ok i) (hi : LineImage i)
    (hj : EachLetter i fun a => ¬ Jam6 (gs.map LGlyph.img) (gs.map glyphWords) a)
    (hfar : EachLetter i fun a => ∀ g ∈ more, ¬ Near6 g.img a)
    (hnew : ∀ g ∈ gs, ∀ u ∈ more, (glyphWords u).head? ≠ (glyphWords g).head?) :
    program6 S f' = program6 S f := by
  have hnew' : ∀ W : LGlyph → Words, (∀ g, (W g).head? = (glyphWords g).head?) →
      ∀ v ∈ gs.map W, ∀ u ∈ more.map W, u.head? ≠ v.head? := by
    intro W hW v hv u hu
    obtain ⟨g, hg, rfl⟩ := List.mem_map.1 hv
    obtain ⟨k, hk, rfl⟩ := List.mem_map.1 hu
    rw [hW, hW]
    exact hnew g hg k hk
  have hfar' : ∀ {bs as}, segment i = .ok bs → Pictures i bs as → ∀ a ∈ as, ∀ j ∈ more.map LGlyph.img, ¬ Near6 j a := by
    intro bs as e hpic a ha j hj
    obtain ⟨g, hg, rfl⟩ := List.mem_map.1 hj
    exact hfar bs as e hpic a ha g hg
  refine same_of_letters h h' hfi hfd hE himg hi hj ?_ ?_
  · intro bs as e hpic a ha hja
    obtain ⟨idx, m⟩ := perm_moved hp glyphWords
    have := m.jam hja
    rw [List.map_append, List.map_append] at this
    exact hj bs as e hpic a ha (jam_more (by simp) (hfar' e hpic a ha) (hnew' _ fun _ => rfl) this)
  · intro bs as e hpic a ha o o' ho ho'
    have ho : Read6 S _ _ a o := ho.mono fun _ _ q => q.natural hS
    have ho' : Read6 S _ _ a o' := ho'.mono fun _ _ q => q.natural hS
    obtain ⟨idx, m⟩ := perm_moved hp usedWords
    have := m.read ho'
    rw [List.map_append, List.map_append] at this
    exact Read6.unique (read_more (by simp) (hfar' e hpic a ha) (hnew' _ usedWords_head) this) ho (by simp) (fun _ => Iff.rfl) (fun _ => Iff.rfl)
      Iff.rfl fun _ => Iff.rfl

/-- **C107**, partial: whatever glyphs are added, a line all of whose letters match a glyph that was there is read, and every word
found before is among the candidates. Missing: the other lines. -/
theorem C107_kept_partial (S S' : StdSort) (f' : ProgFiles) (gs more gs' : List LGlyph) (dict : List (List Nat)) (E : List FNode) (i : Image)
    (h' : Taught6 f' gs') (hp : gs'.Perm (gs ++ more)) (hw : ∀ g ∈ gs', ∀ w ∈ glyphWords g, Spelled w)
    (hE : loadDict f'.dict = .ok E) (hdict : DictOf S' dict E) (himg : loadImage f'.image 128 = .ok i) (hi : LineImage i)
    (hm : EachLetter i fun a => ∃ g ∈ gs, Exact6 g.img a) :
    ∃ bs as R cs, segment i = .ok bs ∧ Pictures i bs as ∧ GoodWords cs ∧
      (∀ a ∈ as, ∀ g ∈ gs, Exact6 g.img a → ∀ w ∈ glyphWords g, w ∈ (R a).amb) ∧
      cs.map (List.map encAll) = withGaps 0 bs (letterWords R [] as) ∧
      program6 S f' = .ok ⟨eachSpaced (fun a => (R a).r1) as, eachSpaced (fun a => (R a).r2) as, encAll (saying dict (cs.dropWhile isStop))⟩ := by
  obtain ⟨d, tg, hd, ht, hfg, hfd⟩ := h'.files
  obtain ⟨bs, as, e, hpic, _, hres⟩ := C90_program S S' f' gs' d dict E tg i h'.good h'.views h'.sized hw h'.few hd ht hfg hfd hE hdict himg hi
  have hmatch : ∀ g ∈ gs, ∀ a, Exact6 g.img a → ∃ k, Match6 (gs'.map LGlyph.img) a k ∧ (gs'.map glyphWords)[k]? = some (glyphWords g) := by
    intro g hg a hx
    obtain ⟨k, hk⟩ := List.getElem?_of_mem (hp.mem_iff.2 (List.mem_append_left more hg))
    exact ⟨k, ⟨g.img, by simp [hk], hx⟩, by simp [hk]⟩
  rcases hres with ⟨R, cs, hR, hgood, hcs, hprog⟩ | ⟨⟨a, ha, hja⟩, _⟩
  · refine ⟨bs, as, R, cs, e, hpic, hgood, ?_, hcs, hprog⟩
    intro a ha g hg hx w hwg
    obtain ⟨k, hk, hkw⟩ := hmatch g hg a hx
    exact ((hR a ha).words w).2 ⟨k, _, .inl hk, hkw, hwg⟩
  · obtain ⟨g, hg, hx⟩ := hm bs as e hpic a ha
    obtain ⟨k, hk, _⟩ := hmatch g hg a hx
    exact absurd hk (hja.1 k)

/-! ### Examples -/

theorem files8_taught {gs : List LGlyph} (i : Image) (hs : ∀ g ∈ gs, Sized g.img) (hv : ∀ g ∈ gs, g.views ≠ [] ∧ g.views.length ≤ maxU ∧
    ∀ v ∈ g.views, v.Good) (hn : gs.length + 63 < W32) : ∃ f, files8 gs i = .ok f ∧ Taught6 f gs ∧ f.image = ppm i ∧ f.dict = none := by
  have hg : ∀ g ∈ gs, g.Good := fun g h => ⟨(hs g h).wf, (hv g h).2.2, (hv g h).2.1⟩
  obtain ⟨d, hd, _⟩ := learnt_loadAll (gs.map LGlyph.img) (by simpa using hs)
  obtain ⟨tg, ht, _⟩ := C46_round_trip gs [] hg
  refine ⟨⟨some tg, some (datasWrite d), ppm i, none, none⟩, ?_, ⟨hg, fun g h => (hv g h).1, hs, hn, d, tg, hd, ht, rfl, rfl⟩, rfl, rfl⟩
  unfold files8
  rw [hd, Res.ok_bind, ht]
  rfl

/-- A bar at the top. -/
def topBar : Image := ⟨⟨3, 3⟩, [120, 120, 120, 45, 45, 45, 45, 45, 45]⟩

/-- Two blocks with a hole. -/
def holedLine : Image := ⟨⟨10, 4⟩,
  let f := [120, 120, 120, 45, 45, 120, 120, 120, 45, 45]
  f ++ f ++ [120, 45, 120, 45, 45, 120, 45, 120, 45, 45] ++ f⟩

/-- A glyph with one word. -/
def oneWord (i : Image) (w : String) : LGlyph := ⟨i, [⟨bytes w, bytes "f", 0⟩]⟩

/-- What `extract_text6` prints for a line after learning the glyphs. -/
def read6 (gs : List LGlyph) (i : Image) : Res Answer6 := do program6 insertionSort (← files8 gs i)

/-- A block with a hole as `a`, which is read; then also a bar as `b`, or as `a`: with the latter the block is no longer read. -/
theorem C107_lost : read6 [oneWord holed "a"] holedLine = .ok ⟨bytes "a a ", bytes "a a ", bytes "aa"⟩ ∧
    read6 [oneWord topBar "b", oneWord holed "a"] holedLine = .ok ⟨bytes "a a ", bytes "a a ", bytes "aa"⟩ ∧
    read6 [oneWord holed "a", oneWord topBar "a"] holedLine = .ok ⟨bytes "a a ", bytes "_ _ ", bytes "_"⟩ := by
  refine ⟨by decide +kernel, by decide +kernel, by decide +kernel⟩

/-- Two blocks look alike, and a line of blocks is read with the lesser word, in whatever order they were learnt. -/
example : let o := oneWord ⟨⟨3, 3⟩, List.replicate 9 120⟩ "o"; let z := oneWord ⟨⟨4, 4⟩, List.replicate 16 120⟩ "0"
    let h := oneWord holed "a"; let r := [120, 120, 120, 45, 45, 120, 120, 120, 45, 45]; let i : Image := ⟨⟨10, 3⟩, r ++ r ++ r⟩
    read6 [o, z, h] i = .ok ⟨bytes "0 0 ", bytes "0 0 ", bytes "00"⟩ ∧ read6 [z, h, o] i = read6 [o, z, h] i ∧
      read6 [h, o, z] i = read6 [o, z, h] i := by
  refine ⟨by decide +kernel, by decide +kernel, by decide +kernel⟩

theorem holed_sized : Sized holed := ⟨⟨by decide, by decide, by decide, by decide⟩, by decide, by decide, by decide, by decide⟩

theorem topBar_sized : Sized topBar := ⟨⟨by decide, by decide, by decide, by decide⟩, by decide, by decide, by decide, by decide⟩

theorem topBar_far : ¬ Near6 topBar holed := by
  have h : (do
      let ri ← topBar.rotate90
      let ra ← holed.rotate90
      let x ← feature (.density, .img) topBar ri
      let y ← feature (.density, .img) holed ra
      return decide (x.toNum / 10 = y.toNum / 10)) = .ok false := by
    decide +kernel
  rintro ⟨ri, ra, e1, e2, hall⟩
  obtain ⟨x, y, e3, e4, e5⟩ := hall (.density, .img) (by decide)
  rw [e1, Res.ok_bind, e2, Res.ok_bind, e3, Res.ok_bind, e4, Res.ok_bind, Res.pure_eq, Res.ok.injEq] at h
  rw [if_neg (by decide)] at e5
  exact of_decide_eq_false h e5

theorem holedLine_line : LineImage holedLine := by
  refine ⟨⟨rfl, by decide, by decide, by decide⟩, by decide, by decide, by decide, .inl (by decide), ?_⟩
  intro bs h
  rw [show segment holedLine = .ok [⟨0, 0, 3, 4⟩, ⟨5, 0, 3, 4⟩] by decide +kernel] at h
  cases h
  decide

theorem holedLine_letters {P : Image → Prop} (h : P holed) : EachLetter holedLine P := by
  intro bs as e hp a ha
  rw [show segment holedLine = .ok [⟨0, 0, 3, 4⟩, ⟨5, 0, 3, 4⟩] by decide +kernel] at e
  cases e
  have hp' : Pictures holedLine [⟨0, 0, 3, 4⟩, ⟨5, 0, 3, 4⟩] [holed, holed] := ⟨by decide +kernel, by decide +kernel, trivial⟩
  rw [pictures_unique hp hp'] at ha
  simp only [List.mem_cons, List.not_mem_nil, or_false, or_self] at ha
  rw [ha]
  exact h

theorem oneWord_views {g : LGlyph} (i : Image) (w : String) (hw : Token (bytes w)) (h : g = oneWord i w) :
    g.views ≠ [] ∧ g.views.length ≤ maxU ∧ ∀ v ∈ g.views, v.Good := by
  subst h
  refine ⟨by simp [oneWord], by show 1 ≤ maxU; decide, ?_⟩
  intro v hv
  rw [List.mem_singleton.1 hv]
  refine ⟨hw, ?_, by show 0 ≤ maxU; decide⟩
  show Token (bytes "f")
  unfold Token
  decide +kernel

/-- **C107** is false: see `C107_lost`. -/
theorem C107_false : ¬ C107_statement := by
  intro hst
  have hw : Token (bytes "a") := by unfold Token; decide +kernel
  obtain ⟨f, e, ht, h1, h2⟩ := files8_taught (gs := [oneWord holed "a"]) holedLine
    (by intro g hg; rw [List.mem_singleton.1 hg]; exact holed_sized)
    (by intro g hg; exact oneWord_views holed "a" hw (List.mem_singleton.1 hg)) (by decide)
  obtain ⟨f', e', ht', h1', h2'⟩ := files8_taught (gs := [oneWord holed "a", oneWord topBar "a"]) holedLine
    (by
      intro g hg
      simp only [List.mem_cons, List.not_mem_nil, or_false] at hg
      rcases hg with rfl | rfl
      · exact holed_sized
      · exact topBar_sized)
    (by
      intro g hg
      simp only [List.mem_cons, List.not_mem_nil, or_false] at hg
      rcases hg with h | h
      · exact oneWord_views holed "a" hw h
      · exact oneWord_views topBar "a" hw h) (by decide)
  obtain ⟨l1, _, l2⟩ := C107_lost
  unfold read6 at l1 l2
  rw [e, Res.ok_bind] at l1
  rw [e', Res.ok_bind] at l2
  have := hst insertionSort f f' [oneWord holed "a"] [oneWord topBar "a"] _ [] holedLine insertionSort_byComparison ht ht' (.refl _)
    (by rw [h1, h1']) (by rw [h2, h2']) (by rw [h2]; rfl) (by rw [h1]; decide +kernel) holedLine_line
    (holedLine_letters (by
      rintro ⟨_, g, i, j, b, hg, _, _, ⟨hne, _⟩, hj, _⟩
      have hg := (List.getElem?_eq_some_iff.1 hg).1
      have hj := (List.getElem?_eq_some_iff.1 hj).1
      simp only [List.map_cons, List.map_nil, List.length_cons, List.length_nil] at hg hj
      omega))
    (holedLine_letters (by
      intro g hg
      rw [List.mem_singleton.1 hg]
      exact topBar_far))
  rw [l1, l2] at this
  exact absurd (congrArg (fun r => match r with | Res.ok a => Answer6.res2 a | _ => []) this) (by decide +kernel)

end Ppocr.Props

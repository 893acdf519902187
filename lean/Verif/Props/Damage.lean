import Verif.Proofs.Behind
import Verif.Proofs.NoThrow
import Verif.Props.Learn

/-! # Damaged files: text behind the contents, and contents cut short (C68, C69) -/

namespace Ppocr.Props
open Ppocr Spec

/-! ### C68 -/

/-- Full statement of **C68**: the program prints nothing when behind the contents of one of its text files there is
something that is no number. -/
def C68_statement (P : Type) [Dbl P] (S : StdSort) : Prop :=
  ∀ (f : ProgFiles) (r : List Nat) (a : Answer), Foreign r → program P S f = .ok a →
    (∀ d : Datas, d.Fits → f.datas ≠ some (datasWrite d ++ r)) ∧
    (∀ E : List FNode, (∀ n ∈ E, n.fits) → f.dict ≠ some (some (dictWrite E ++ r))) ∧
    (∀ gs t, (∀ g ∈ gs, LGlyph.Readable g) → glyphsWrite gs = .ok t → f.glyphs ≠ some (t ++ r)) ∧
    (∀ t es, EntryText t es r → f.infos ≠ some (some t))

/-- Behind the features there may be blanks, and nothing else. -/
theorem C68_features (d : Datas) (h : d.Fits) (r : List Nat) :
    ((∀ c ∈ r, Blank c) → loadDatas (some (datasWrite d ++ r)) = .ok ⟨d.tables, Ctxs.fresh⟩) ∧
    ((∃ c ∈ r, ¬ Blank c) → loadDatas (some (datasWrite d ++ r)) = .throw) := by
  obtain ⟨p, hp, e⟩ := datasRead_append h r
  have hp' : ∀ c ∈ p, Blank c := fun c hc => isBlank_iff.1 (hp c hc)
  unfold loadDatas openText checkEof
  simp only [Res.ok_bind, e]
  constructor
  · intro hr
    rw [sentry_blank (by
      intro c hc
      rcases List.mem_append.1 hc with hc | hc
      · exact hp' c hc
      · exact hr c hc), if_pos rfl]
    rfl
  · rintro ⟨c, hc, hb⟩
    rw [sentry_nonblank ⟨c, List.mem_append_right _ hc, hb⟩, if_neg (by simp)]
    rfl

/-- Behind the dictionary, something that is no number. -/
theorem C68_dictionary (E : List FNode) (h : ∀ n ∈ E, n.fits) (r : List Nat) (hr : Foreign r) :
    loadDict (some (some (dictWrite E ++ r))) = .throw := by
  obtain ⟨s, e, hs⟩ := dictRead_foreign h hr []
  unfold loadDict openText checkEof
  simp [e, hs, Res.ok_bind, Res.throw_bind]

/-- Behind the glyphs, a line, and then something that is no number. -/
theorem C68_glyphs (gs : List LGlyph) (h : ∀ g ∈ gs, g.Readable) (hs : SmallWords gs)
    (h4 : ∀ v ∈ allViews gs, v.word.length % 4 ≠ 0) (t l r : List Nat) (ht : glyphsWrite gs = .ok t) (hl : 10 ∉ l)
    (hr : Foreign r) : loadGlyphs (some (t ++ (l ++ 10 :: r))) = .throw := by
  obtain ⟨k, hk⟩ := rglyphsLoop_foreign hl hr
  obtain ⟨t', G, wm, fid, ht', e, _⟩ := rglyphsRead_stop hk gs h hs h4
  rw [ht] at ht'
  cases ht'
  unfold loadGlyphs openText checkEof
  simp only [Res.ok_bind, e]
  rfl

/-- Behind the positions, a word, and then something that is no number. -/
theorem C68_positions (S : StdSort) (g : RGlyphs) (t q w r : List Nat) (es : List Entry) (he : EntryText t es q)
    (hw : Word q w r) (hr : Foreign r) : loadInfos S g (some (some t)) = .throw := by
  obtain ⟨x, e, hx⟩ := wwordsLoop_foreign (t.length + 1) (IS.of t) [] es q w r ⟨rfl, rfl, by simp [IS.of]⟩ (by simp [IS.of])
    he hw hr
  have e : wwordsRead (IS.of t) [] = .ok x := e
  unfold loadInfos openText checkEof
  simp [e, hx, Res.ok_bind, Res.throw_bind]

/-- **C68** for the features and the dictionary; for the glyphs and the positions, when what is behind them has a second
line or a second word that is no number. Missing: a single line behind the glyphs, a single word behind the positions. -/
theorem C68_refused_partial {P : Type} [Dbl P] (S : StdSort) (f : ProgFiles) (r : List Nat) (a : Answer) (hr : Foreign r)
    (h : program P S f = .ok a) :
    (∀ d : Datas, d.Fits → f.datas ≠ some (datasWrite d ++ r)) ∧
    (∀ E : List FNode, (∀ n ∈ E, n.fits) → f.dict ≠ some (some (dictWrite E ++ r))) ∧
    (∀ gs t l, (∀ g ∈ gs, LGlyph.Readable g) → SmallWords gs → (∀ v ∈ allViews gs, v.word.length % 4 ≠ 0) →
      glyphsWrite gs = .ok t → 10 ∉ l → f.glyphs ≠ some (t ++ (l ++ 10 :: r))) ∧
    (∀ t es q w, EntryText t es q → Word q w r → f.infos ≠ some (some t)) := by
  unfold program at h
  obtain ⟨E, h1, h⟩ := Res.bind_eq_ok.1 h
  obtain ⟨d, h2, h⟩ := Res.bind_eq_ok.1 h
  obtain ⟨g, h3, h⟩ := Res.bind_eq_ok.1 h
  split at h
  · cases h
  obtain ⟨I, h4, h⟩ := Res.bind_eq_ok.1 h
  refine ⟨?_, ?_, ?_, ?_⟩
  · intro d' hd e
    obtain ⟨p, c, t, rfl, _, hc, _⟩ := hr
    rw [e, (C68_features d' hd _).2 ⟨c, by simp, hc⟩] at h2
    cases h2
  · intro E' hE e
    rw [e, C68_dictionary E' hE r hr] at h1
    cases h1
  · intro gs t l hg hs hw ht hl e
    rw [e, C68_glyphs gs hg hs hw t l r ht hl hr] at h3
    cases h3
  · intro t es q w he hw e
    rw [e, C68_positions S g t q w r es he hw hr] at h4
    cases h4

/-- A line behind the glyphs is not looked at, whatever it holds. -/
theorem C68_glyph_line (gs : List LGlyph) (h : ∀ g ∈ gs, g.Readable) (hs : SmallWords gs)
    (h4 : ∀ v ∈ allViews gs, v.word.length % 4 ≠ 0) (t l : List Nat) (ht : glyphsWrite gs = .ok t) (hl : 10 ∉ l) :
    ∃ G wm fid, loadGlyphs (some (t ++ l)) = .ok G ∧ WordTable gs G wm fid := by
  obtain ⟨t', G, wm, fid, ht', e, hw⟩ := rglyphsRead_stop (rglyphsLoop_line hl) gs h hs h4
  rw [ht] at ht'
  cases ht'
  refine ⟨G, wm, fid, ?_, hw⟩
  unfold loadGlyphs openText checkEof
  simp only [Res.ok_bind, e]
  rfl

/-! ### Witnesses -/

/-- A block with the word `a`, a bar with the word `!`. -/
def pairGlyphs : List LGlyph := [⟨block, [⟨[97], [102], 0⟩]⟩, ⟨bar, [⟨[33], [102], 0⟩]⟩]

def pairText : List Nat := bytes "2 2 xxxx\n1\na f 0\n1 2 xx\n1\n! f 0\n"

theorem pairGlyphs_write : glyphsWrite pairGlyphs = .ok pairText := by decide +kernel

theorem pairGlyphs_readable : ∀ g ∈ pairGlyphs, g.Readable := by
  intro g hg
  have hv : ∀ w : List Nat, w = [97] ∨ w = [33] → ∀ v ∈ [(⟨w, [102], 0⟩ : LView)], v.Good := by
    intro w hw v hv
    rw [List.mem_singleton] at hv
    subst hv
    rcases hw with rfl | rfl <;>
      exact ⟨⟨by decide, by decide⟩, ⟨by decide, by decide⟩, show 0 ≤ maxU by decide⟩
  simp only [pairGlyphs, List.mem_cons, List.not_mem_nil, or_false] at hg
  rcases hg with rfl | rfl
  · exact ⟨⟨(twoLetters block (by simp)).wf, hv _ (.inl rfl), show 1 ≤ maxU by decide⟩, by simp, by decide⟩
  · exact ⟨⟨(twoLetters bar (by simp)).wf, hv _ (.inr rfl), show 1 ≤ maxU by decide⟩, by simp, by decide⟩

/-- The features that `write_datas` prints for them. -/
def pairDatas : List Nat :=
  match writeDatas (some pairText) with
  | .ok r => r.2
  | _ => []

/-- The files of the program; the image shows the block, the bar, a gap and the block. -/
def pairFiles : ProgFiles := ⟨some pairText, some pairDatas, ppm blockGap, none, none⟩

theorem pairFiles_read : program Frac insertionSort pairFiles = .ok ⟨bytes "a! a", 0, 3⟩ := by decide +kernel

/-- A line behind the glyphs, and a word behind the positions, change nothing. -/
theorem C68_accepted :
    program Frac insertionSort { pairFiles with glyphs := some (pairText ++ bytes "thrown away") } = .ok ⟨bytes "a! a", 0, 3⟩ ∧
    program Frac insertionSort { pairFiles with infos := some (some (bytes "a 0 1 2 4\nword")) } = .ok ⟨bytes "a! a", 0, 3⟩ := by
  decide +kernel

theorem C68_false : ¬ C68_statement Frac insertionSort := by
  intro h
  refine (h _ (bytes "thrown away") _ ?_ C68_accepted.1).2.2.1 pairGlyphs pairText pairGlyphs_readable pairGlyphs_write rfl
  have e : bytes "thrown away" = [] ++ 116 :: (bytes "thrown away").tail := by decide +kernel
  exact ⟨[], 116, _, e, by simp, by simp [Blank], by simp [Digit], by decide, by decide⟩

/-- What the theorems refuse. -/
example :
    program Frac insertionSort { pairFiles with datas := some (pairDatas ++ bytes " 1") } = .throw ∧
    program Frac insertionSort { pairFiles with dict := some (some (bytes "97 1 0 1\nx")) } = .throw ∧
    program Frac insertionSort { pairFiles with glyphs := some (pairText ++ bytes "thrown\naway") } = .throw ∧
    program Frac insertionSort { pairFiles with infos := some (some (bytes "a 0 1 2 4\nword word")) } = .throw ∧
    program Frac insertionSort { pairFiles with datas := some (pairDatas ++ bytes " \n ") } = .ok ⟨bytes "a! a", 0, 3⟩ := by
  decide +kernel

/-! ### `write_datas` (C66) -/

/-- `write_datas` prints what is behind the glyphs, between brackets, and gives the code 5, unless it begins with a number. -/
theorem C66_rest (gs : List LGlyph) (h : ∀ g ∈ gs, g.Good) (hs : ∀ g ∈ gs, Sized g.img) (t p r : List Nat) (c : Nat)
    (ht : glyphsWrite gs = .ok t) (hp : ∀ b ∈ p, Blank b) (hc : ¬ Blank c) (hd : ¬ Digit c) (h1 : c ≠ 43) (h2 : c ≠ 45) :
    writeDatas (some (t ++ (p ++ c :: r))) = .ok (5, bytes "[" ++ c :: r ++ bytes "]\n") := by
  obtain ⟨p', k, e, hp', ⟨c', t', rfl, hc'⟩, hl⟩ := datasLoop_foreign ⟨p, c, r, rfl, hp, hc, hd, h1, h2⟩
  have hk : c' :: t' = c :: r := by
    have skip : ∀ (a : List Nat) (x : Nat) (b : List Nat), (∀ y ∈ a, Blank y) → ¬ Blank x →
        (a ++ x :: b).dropWhile (fun y => isSpace y) = x :: b := by
      intro a x b ha hx
      rw [List.dropWhile_append_of_pos (fun y hy => isBlank_iff.2 (ha y hy)), List.dropWhile_cons,
        if_neg fun hs => hx (isBlank_iff.1 hs)]
    rw [← skip p' c' t' hp' hc', ← e, skip p c r hp hc]
  obtain ⟨t'', ht', hlen⟩ := glyphsWrite_total h
  rw [ht] at ht'
  cases ht'
  obtain ⟨d, ed, _⟩ := learnt_loadAll (gs.map LGlyph.img) (by
    intro i hi
    obtain ⟨g, hg, rfl⟩ := List.mem_map.1 hi
    exact hs g hg)
  unfold writeDatas IS.of
  simp only []
  rw [datasLoop_stop hl gs t _ Datas.empty d h ht (by rw [List.length_append]; omega) ed, hk]
  have e1 : bytes "[" = [91] := by decide +kernel
  have e2 : bytes "]\n" = [93, 10] := by decide +kernel
  rw [e1, e2]
  simp [Res.ok_bind, showRest]

/-- But a file cut behind a picture is accepted: the last glyph is missing. -/
theorem C66_cut (gs : List LGlyph) (g : LGlyph) (h : ∀ g ∈ gs, g.Good) (hg : g.Good) (hs : ∀ g ∈ gs, Sized g.img) :
    ∃ t a d, glyphsWrite gs = .ok t ∧ imgWrite g.img = .ok a ∧ Learnt (gs.map LGlyph.img) d ∧
      writeDatas (some (t ++ a)) = .ok (0, datasWrite d) ∧ writeDatas (some (t ++ (a ++ [10]))) = .ok (0, datasWrite d) := by
  obtain ⟨t, ht, hlen⟩ := glyphsWrite_total h
  obtain ⟨d, ed, hL⟩ := learnt_loadAll (gs.map LGlyph.img) (by
    intro i hi
    obtain ⟨g, hg, rfl⟩ := List.mem_map.1 hi
    exact hs g hg)
  have ha : imgWrite g.img = .ok (boundsWrite g.img.bounds ++ 32 :: g.img.data.map UInt8.toNat) := by
    have hl : g.img.data.length = g.img.bounds.area := by
      unfold Bounds.area umul
      rw [Nat.mod_eq_of_lt hg.img.small, hg.img.len]
    unfold imgWrite
    rw [if_pos (by omega), List.take_of_length_le (by omega)]
  refine ⟨t, _, d, ht, ha, hL, ?_, ?_⟩
  · have := datasLoop_stop (datasLoop_picture hg.img (p := []) (by simp)) gs t ((t ++ (boundsWrite g.img.bounds ++ 32 :: g.img.data.map UInt8.toNat)).length + 1)
      Datas.empty d h ht (by rw [List.length_append]; omega) ed
    rw [List.append_nil] at this
    unfold writeDatas IS.of
    simp only []
    rw [this]
    rfl
  · have := datasLoop_stop (datasLoop_picture hg.img (p := [10]) (by simp [Blank])) gs t ((t ++ (boundsWrite g.img.bounds ++ 32 :: g.img.data.map UInt8.toNat ++ [10])).length + 1)
      Datas.empty d h ht (by rw [List.length_append]; omega) ed
    unfold writeDatas IS.of
    simp only [List.append_assoc, List.cons_append] at this ⊢
    rw [this]
    rfl

/-- The features of the block alone, from a file that ends in the glyph of the bar. -/
example : writeDatas (some (bytes "2 2 xxxx\n1\na f 0\n1 2 xx")) = writeDatas (some (bytes "2 2 xxxx\n1\na f 0\n")) ∧
    writeDatas (some (bytes "2 2 xxxx\n1\na f 0\n \n rest of it")) = .ok (5, bytes "[rest of it]\n") := by decide +kernel

/-! ### C70 -/

/-- **C70**: if the program ends with an exception, one of its files could not be loaded, or the number of glyphs and that of
features differ; recognition throws nothing. -/
theorem C70_exceptions {P : Type} [Dbl P] (S : StdSort) (f : ProgFiles) (h : program P S f = .throw) :
    loadDict f.dict = .throw ∨ loadDatas f.datas = .throw ∨ loadGlyphs f.glyphs = .throw ∨
      (∃ d g, loadDatas f.datas = .ok d ∧ loadGlyphs f.glyphs = .ok g ∧
        (g.views.length ≠ d.size ∨ loadInfos S g f.infos = .throw)) ∨ loadImage f.image 128 = .throw := by
  unfold program at h
  rcases bind_eq_throw h with h | ⟨E, _, h⟩
  · exact .inl h
  rcases bind_eq_throw h with h | ⟨d, hd, h⟩
  · exact .inr (.inl h)
  rcases bind_eq_throw h with h | ⟨g, hg, h⟩
  · exact .inr (.inr (.inl h))
  split at h
  · rename_i hn
    exact .inr (.inr (.inr (.inl ⟨d, g, hd, hg, .inl hn⟩)))
  rename_i hn
  rcases bind_eq_throw h with h | ⟨I, _, h⟩
  · exact .inr (.inr (.inr (.inl ⟨d, g, hd, hg, .inr h⟩)))
  rcases bind_eq_throw h with h | ⟨bw, _, h⟩
  · unfold checkTables at h
    rw [if_neg hn] at h
    exact absurd h NoThrow.out
  rcases bind_eq_throw h with h | ⟨i, _, h⟩
  · exact .inr (.inr (.inr (.inr h)))
  · exact absurd h NoThrow.out

/-- With an image that is none, and with all files at hand. -/
example : program Frac insertionSort { pairFiles with image := ⟨true, true, 2, [80, 57], []⟩ } = .throw ∧
    loadImage ⟨true, true, 2, [80, 57], []⟩ 128 = .throw ∧ program Frac insertionSort pairFiles ≠ .throw := by decide +kernel

/-! ### C69 -/

/-- Full statement of **C69**: when a text file of a program that prints a text is cut short, and more than blanks are
missing, the program ends with an exception. -/
def C69_statement (P : Type) [Dbl P] (S : StdSort) : Prop :=
  ∀ (f : ProgFiles) (l r : List Nat) (a : Answer), (∃ c ∈ r, ¬ Blank c) → program P S f = .ok a →
    (f.glyphs = some (l ++ r) → program P S { f with glyphs := some l } = .throw) ∧
    (f.datas = some (l ++ r) → program P S { f with datas := some l } = .throw) ∧
    (f.infos = some (some (l ++ r)) → program P S { f with infos := some (some l) } = .throw) ∧
    (f.dict = some (some (l ++ r)) → program P S { f with dict := some (some l) } = .throw)

/-- The check at the end of the file never sees that features are missing: if a file is accepted, so is each of its
beginnings. -/
theorem C69_features_unnoticed (l r : List Nat) (d : Datas) (h : loadDatas (some (l ++ r)) = .ok d) :
    ∃ d', loadDatas (some l) = .ok d' := by
  unfold loadDatas openText checkEof at h ⊢
  simp only [Res.ok_bind] at h ⊢
  split at h
  · rename_i he
    exact ⟨_, by rw [if_pos (datasRead_cut l r he)]; rfl⟩
  · cases h

/-- The same for the dictionary: what is loaded is a beginning of the nodes. -/
theorem C69_dictionary_unnoticed (l r : List Nat) (E : List FNode) (h : loadDict (some (some (l ++ r))) = .ok E) :
    ∃ E', loadDict (some (some l)) = .ok E' ∧ E' <+: E := by
  unfold loadDict openText dictRead checkEof at h ⊢
  simp only [Res.ok_bind, Res.bind_assoc, Res.pure_eq, IS.of] at h ⊢
  obtain ⟨⟨x, s⟩, h1, h⟩ := Res.bind_eq_ok.1 h
  cases x with
  | threw => simp [DictEnd.finish] at h
  | nodes ns =>
    simp only [DictEnd.finish, Bool.false_eq_true, if_false] at h
    by_cases he : s.eof = true
    · simp only [he, if_true, Res.ok_bind, Res.ok.injEq] at h
      subst h
      obtain ⟨ms, p, h2, h3, h4⟩ := dictLoop_cut (l.length + 1) _ l r [] ns false s (by omega) h1 he
      refine ⟨ms, ?_, h4⟩
      rw [h2, Res.ok_bind]
      simp [DictEnd.finish, h3, Res.ok_bind]
    · simp only [he] at h
      cases h

/-- The same for the glyphs: a beginning that ends before the first word may have undefined behaviour, but it is not refused. -/
theorem C69_glyphs_unnoticed (l r : List Nat) (g : RGlyphs) (h : loadGlyphs (some (l ++ r)) = .ok g) :
    loadGlyphs (some l) ≠ .throw := by
  unfold loadGlyphs openText rglyphsRead checkEof at h ⊢
  simp only [Res.ok_bind, Res.bind_assoc, Res.pure_eq, IS.of] at h ⊢
  obtain ⟨x, h1, h⟩ := Res.bind_eq_ok.1 h
  obtain ⟨g', _, h⟩ := Res.bind_eq_ok.1 h
  by_cases he : x.2.1.eof = true
  · obtain ⟨y, h2, h3⟩ := rglyphsLoop_cut (l.length + 1) _ l r [] [] [] true (by omega) h1 he
    rw [h2, Res.ok_bind]
    simp only [h3, if_true]
    exact NoThrow.out
  · simp only [if_neg he] at h
    cases h

/-- The same for the positions. -/
theorem C69_positions_unnoticed (S : StdSort) (g : RGlyphs) (l r : List Nat) (I : List WordInfo)
    (h : loadInfos S g (some (some (l ++ r))) = .ok I) : loadInfos S g (some (some l)) ≠ .throw := by
  unfold loadInfos openText wwordsRead checkEof at h ⊢
  simp only [Res.ok_bind, IS.of] at h ⊢
  obtain ⟨x, h1, h⟩ := Res.bind_eq_ok.1 h
  by_cases he : x.2.eof = true
  · obtain ⟨ms, p, h2, h3⟩ := wwordsLoop_cut (l.length + 1) _ l r [] x.1 true x.2 (by omega) h1 he
    rw [h2, Res.ok_bind, if_pos h3, Res.ok_bind]
    exact NoThrow.out
  · rw [if_neg he] at h
    cases h

/-- Whether the positions are accepted does not depend on the glyphs. -/
theorem loadInfos_noThrow {S : StdSort} {g : RGlyphs} {x : Option TextFile} {I : List WordInfo} (h : loadInfos S g x = .ok I)
    (g' : RGlyphs) : loadInfos S g' x ≠ .throw := by
  cases x with
  | none =>
    unfold loadInfos
    exact NoThrow.out
  | some f =>
    unfold loadInfos at h ⊢
    simp only [] at h ⊢
    obtain ⟨s, h1, h⟩ := Res.bind_eq_ok.1 h
    obtain ⟨r, h2, h⟩ := Res.bind_eq_ok.1 h
    obtain ⟨u, h3, h⟩ := Res.bind_eq_ok.1 h
    rw [h1, Res.ok_bind, h2, Res.ok_bind, h3, Res.ok_bind]
    exact NoThrow.out

/-- **C69** for glyph files cut at, or in the first line of, a glyph: the number of glyphs is not that of the features.
Missing: the other places, and the other files. -/
theorem C69_count_partial {P : Type} [Dbl P] (S : StdSort) (f : ProgFiles) (E : List FNode) (d : Datas) (gs : List LGlyph)
    (t l e : List Nat) (h : ∀ g ∈ gs, g.Readable) (hs : SmallWords gs) (h4 : ∀ v ∈ allViews gs, v.word.length % 4 ≠ 0)
    (ht : glyphsWrite gs = .ok t) (hl : 10 ∉ l) (he : e = [] ∨ e = [10]) (hE : loadDict f.dict = .ok E)
    (hd : loadDatas f.datas = .ok d) (hn : d.size ≠ gs.length) (hf : f.glyphs = some (t ++ (l ++ e))) :
    program P S f = .throw := by
  have hstop : ∀ (fuel : Nat) (wm fm : StrMap) (acc : List (List View)),
      rglyphsLoop (fuel + 1) ⟨l ++ e, false, false, true⟩ wm fm acc = .ok (acc, ⟨[], true, true, true⟩, wm, fm) := by
    intro fuel wm fm acc
    rcases he with rfl | rfl
    · rw [List.append_nil]
      exact rglyphsLoop_line hl fuel wm fm acc
    · exact rglyphsLoop_header hl fuel wm fm acc
  obtain ⟨t', G, wm, fid, ht', e, hw⟩ := rglyphsRead_stop hstop gs h hs h4
  rw [ht] at ht'
  cases ht'
  have hg : loadGlyphs f.glyphs = .ok G := by
    rw [hf]
    unfold loadGlyphs openText checkEof
    simp only [Res.ok_bind, e]
    rfl
  unfold program
  simp only [hE, hd, hg, Res.ok_bind]
  rw [if_pos]
  rw [hw.views, List.length_map]
  exact fun h => hn h.symm

/-- In a program that prints a text, a cut is noticed only if it makes the number of glyphs and that of features differ: a
cut of the dictionary, or of the positions, never. -/
theorem C69_noticed_only_by_count {P : Type} [Dbl P] (S : StdSort) (f : ProgFiles) (l r : List Nat) (a : Answer)
    (h : program P S f = .ok a) :
    (f.glyphs = some (l ++ r) → program P S { f with glyphs := some l } = .throw →
      ∃ d g, loadDatas f.datas = .ok d ∧ loadGlyphs (some l) = .ok g ∧ g.views.length ≠ d.size) ∧
    (f.datas = some (l ++ r) → program P S { f with datas := some l } = .throw →
      ∃ d g, loadDatas (some l) = .ok d ∧ loadGlyphs f.glyphs = .ok g ∧ g.views.length ≠ d.size) ∧
    (f.infos = some (some (l ++ r)) → program P S { f with infos := some (some l) } ≠ .throw) ∧
    (f.dict = some (some (l ++ r)) → program P S { f with dict := some (some l) } ≠ .throw) := by
  unfold program at h
  obtain ⟨E, hE, h⟩ := Res.bind_eq_ok.1 h
  obtain ⟨d, hd, h⟩ := Res.bind_eq_ok.1 h
  obtain ⟨g, hg, h⟩ := Res.bind_eq_ok.1 h
  split at h
  · cases h
  rename_i hn
  obtain ⟨I, hI, h⟩ := Res.bind_eq_ok.1 h
  obtain ⟨bw, _, h⟩ := Res.bind_eq_ok.1 h
  obtain ⟨i, hi, h⟩ := Res.bind_eq_ok.1 h
  have ne : ∀ {α : Type} {x : Res α} {a : α}, x = .ok a → x ≠ .throw := by
    rintro α x a rfl
    exact NoThrow.out
  refine ⟨fun e ht => ?_, fun e ht => ?_, fun e ht => ?_, fun e ht => ?_⟩
  · rcases C70_exceptions S _ ht with h | h | h | ⟨d', g', hd', hg', h | h⟩ | h
    · exact absurd h (ne hE)
    · exact absurd h (ne hd)
    · exact absurd h (C69_glyphs_unnoticed l r g (e ▸ hg))
    · exact ⟨d', g', hd', hg', h⟩
    · exact absurd h (loadInfos_noThrow hI g')
    · exact absurd h (ne hi)
  · rcases C70_exceptions S _ ht with h | h | h | ⟨d', g', hd', hg', h | h⟩ | h
    · exact absurd h (ne hE)
    · obtain ⟨d', hd'⟩ := C69_features_unnoticed l r d (e ▸ hd)
      exact absurd h (ne hd')
    · exact absurd h (ne hg)
    · exact ⟨d', g', hd', hg', h⟩
    · exact absurd h (loadInfos_noThrow hI g')
    · exact absurd h (ne hi)
  · rcases C70_exceptions S _ ht with h | h | h | ⟨d', g', hd', hg', h | h⟩ | h
    · exact absurd h (ne hE)
    · exact absurd h (ne hd)
    · exact absurd h (ne hg)
    · rw [show loadDatas f.datas = .ok d' from hd'] at hd
      rw [show loadGlyphs f.glyphs = .ok g' from hg'] at hg
      cases hd
      cases hg
      exact hn h
    · rw [show loadGlyphs f.glyphs = .ok g' from hg'] at hg
      cases hg
      exact absurd h (C69_positions_unnoticed S g l r I (e ▸ hI))
    · exact absurd h (ne hi)
  · rcases C70_exceptions S _ ht with h | h | h | ⟨d', g', hd', hg', h | h⟩ | h
    · obtain ⟨E', hE', _⟩ := C69_dictionary_unnoticed l r E (e ▸ hE)
      exact absurd h (ne hE')
    · exact absurd h (ne hd)
    · exact absurd h (ne hg)
    · rw [show loadDatas f.datas = .ok d' from hd'] at hd
      rw [show loadGlyphs f.glyphs = .ok g' from hg'] at hg
      cases hd
      cases hg
      exact hn h
    · exact absurd h (loadInfos_noThrow hI g')
    · exact absurd h (ne hi)

/-- With the glyphs cut behind the number of views of the last one, every bar is read as the first word of the table; with
the features cut, the program reads out of bounds, or prints one `?`. -/
theorem C69_accepted :
    program Frac insertionSort { pairFiles with glyphs := some (bytes "2 2 xxxx\n1\na f 0\n1 2 xx\n1") } =
      .ok ⟨bytes "aa a", 0, 3⟩ ∧
    program Frac insertionSort { pairFiles with datas := some (bytes "2\n100") } = .ub ∧
    program Frac insertionSort { pairFiles with datas := some (bytes "2") } = .ok ⟨bytes "?", 1, 3⟩ := by
  decide +kernel

theorem C69_false : ¬ C69_statement Frac insertionSort := by
  intro h
  have := (h pairFiles (bytes "2 2 xxxx\n1\na f 0\n1 2 xx\n1") (bytes "\n! f 0\n") _ ⟨33, by decide +kernel, by simp [Blank]⟩
    pairFiles_read).1 (by decide +kernel)
  rw [C69_accepted.1] at this
  cases this

/-- What the number of glyphs refuses. -/
example :
    program Frac insertionSort { pairFiles with glyphs := some (bytes "2 2 xxxx\n1\na f 0\n1 2 xx\n") } = .throw ∧
    program Frac insertionSort { pairFiles with glyphs := some (bytes "2 2 xxxx\n1\na f 0\n") } = .throw ∧
    program Frac insertionSort { pairFiles with glyphs := some [] } = .throw := by decide +kernel

end Ppocr.Props

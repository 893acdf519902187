import Verif.Proofs.Learn
import Verif.Props.Tools

/-! # Learning, then reading (C67) -/

namespace Ppocr.Props
open Ppocr Spec

/-- `write_glyphs`, `write_datas` on its output, then `ocr2_extract_text` with the output of both. -/
def learnAndRead (P : Type) [Dbl P] (S : StdSort) (lum : Nat) (jobs : List Job) (image : FileEnv)
    (infos dict : Option TextFile) : Res Answer := do
  let g := writeGlyphs lum jobs
  g.ended
  let r ← writeDatas (some g.out)
  if r.1 ≠ 0 then .throw else program P S ⟨some g.out, some r.2, image, infos, dict⟩

/-- The lines to learn from: as many words as letters, letters of a reasonable size, words in UTF-8. -/
structure Course (lum : Nat) (ls : List Lesson) : Prop where
  holds : ∀ l ∈ ls, l.Holds lum
  count : ∀ l ∈ ls, l.words.length = l.boxes.length
  letters : ∀ l ∈ ls, ∀ b ∈ l.boxes, Fits b
  font : ∀ l ∈ ls, Token l.job.font
  text : ∀ p ∈ taught ls, ∃ cs, (∀ c ∈ cs, Scalar c) ∧ p.2 = encAll cs
  size : ((taught ls).map fun p => p.2.length + 1).sum < 2 ^ 32

/-- There is no file of positions; or it holds only entries, and their words can be searched for (C49): they were taught, or
are not longer than the room of the greatest word that was. -/
def InfoFile (ls : List Lesson) : Option TextFile → Prop
  | none => True
  | some f => ∃ t es, f = some t ∧ EntryFile t es ∧ ∀ e ∈ es, e.word.length ≤ 8 → (∀ c ∈ e.word, c ≠ 0) ∧
    ((∃ p ∈ taught ls, p.2 = e.word) ∨ ∀ p ∈ taught ls, (∀ q ∈ taught ls, wordLt p.2 q.2 = false) →
      e.word.length ≤ 4 * ((p.2.length + 3) / 4))

/-- There is no dictionary; or the file was made from the words `ws` (C58). -/
def DictFile (S : StdSort) (ws : List (List Nat)) : Option TextFile → Prop
  | none => ws = []
  | some f => ∃ t, f = some t ∧ makeTrie S [some (wordFile ws)] = .ok t ∧ (∀ w ∈ ws, w ≠ [] ∧ Line w) ∧
    (ws.map List.length).sum < 2 ^ 32

/-- Full statement of **C67**. -/
def C67_statement (P : Type) [Dbl P] (S : StdSort) : Prop :=
  ∀ (lum : Nat) (ls : List Lesson) (infos dict : Option TextFile) (ws : List (List Nat)) (image : FileEnv) (i : Image)
    (bs : List Box) (as : List Image) (texts : List (List Nat)), Course lum ls → InfoFile ls infos → DictFile S ws dict →
    loadImage image 128 = .ok i → LineImage i → segment i = .ok bs → Pictures i bs as → texts.length = as.length →
    (∀ (k : Nat) a cs, as[k]? = some a → texts[k]? = some cs → Stands ls a cs) →
    learnAndRead P S lum (ls.map Lesson.job) image infos dict = .ok ⟨encAll (spaced bs texts), 0, bs.length⟩

/-! ### The glyphs of a course -/

theorem zipWith_glyphs (font : List Nat) : ∀ (as : List Image) (ws : List (List Nat)),
    lineGlyphs font as ws = (as.zip ws).map fun p => ⟨p.1, [⟨p.2, font, 2 ^ 32 - 1⟩]⟩
  | [], _ => rfl
  | _ :: _, [] => rfl
  | a :: as, w :: ws => by
    have := zipWith_glyphs font as ws
    unfold lineGlyphs at this ⊢
    rw [List.zipWith_cons_cons, this]
    rfl

theorem glyphs_taught {ls : List Lesson} {g : LGlyph} (h : g ∈ ls.flatMap Lesson.glyphs) :
    ∃ w font, (g.img, w) ∈ taught ls ∧ g.views = [⟨w, font, 2 ^ 32 - 1⟩] := by
  obtain ⟨l, hl, h⟩ := List.mem_flatMap.1 h
  unfold Lesson.glyphs at h
  rw [zipWith_glyphs] at h
  obtain ⟨p, hp, rfl⟩ := List.mem_map.1 h
  exact ⟨p.2, l.job.font, List.mem_flatMap.2 ⟨l, hl, hp⟩, rfl⟩

theorem taught_glyphs {ls : List Lesson} {p : Image × List Nat} (h : p ∈ taught ls) :
    ∃ g ∈ ls.flatMap Lesson.glyphs, g.img = p.1 ∧ ∃ v ∈ g.views, v.word = p.2 := by
  obtain ⟨l, hl, h⟩ := List.mem_flatMap.1 h
  refine ⟨⟨p.1, [⟨p.2, l.job.font, 2 ^ 32 - 1⟩]⟩, List.mem_flatMap.2 ⟨l, hl, ?_⟩, rfl, _, List.mem_singleton_self _, rfl⟩
  unfold Lesson.glyphs
  rw [zipWith_glyphs]
  exact List.mem_map_of_mem h

theorem views_taught (ls : List Lesson) :
    (allViews (ls.flatMap Lesson.glyphs)).map LView.word = (taught ls).map Prod.snd := by
  unfold allViews taught
  induction ls with
  | nil => rfl
  | cons l ls ih =>
    rw [List.flatMap_cons, List.flatMap_append, List.map_append, ih, List.flatMap_cons, List.map_append]
    congr 1
    unfold Lesson.glyphs
    rw [zipWith_glyphs]
    generalize l.pics.zip l.words = z
    induction z with
    | nil => rfl
    | cons p z ih => simpa using ih

/-- The pictures of a course are letters. -/
theorem Course.letter {lum : Nat} {ls : List Lesson} (h : Course lum ls) :
    ∀ g ∈ ls.flatMap Lesson.glyphs, Sized g.img := by
  intro g hg
  obtain ⟨l, hl, hg⟩ := List.mem_flatMap.1 hg
  obtain ⟨a, ha, w, _, rfl⟩ := lineGlyphs_mem hg
  obtain ⟨_, _, hp⟩ := line_pics (h.holds l hl)
  obtain ⟨wf, _, b, hb, e, h1, h2⟩ := hp a ha
  obtain ⟨f1, f2⟩ := h.letters l hl b hb
  refine ⟨wf, ?_, ?_, ?_, ?_⟩
  · rw [e]; exact h1
  · rw [e]; exact h2
  · rw [e]; exact f1
  · rw [e]; exact f2

theorem Course.readable {lum : Nat} {ls : List Lesson} (h : Course lum ls) :
    ∀ g ∈ ls.flatMap Lesson.glyphs, g.Readable := by
  intro g hg
  obtain ⟨l, hl, hg⟩ := List.mem_flatMap.1 hg
  exact line_readable (h.holds l hl) (h.font l hl) g hg

theorem Course.smallWords {lum : Nat} {ls : List Lesson} (h : Course lum ls) : SmallWords (ls.flatMap Lesson.glyphs) := by
  have e := congrArg (List.map fun w : List Nat => w.length + 1) (views_taught ls)
  rw [List.map_map, List.map_map] at e
  have := h.size
  unfold SmallWords
  rw [show (allViews (ls.flatMap Lesson.glyphs)).map (fun v => v.word.length + 1) = _ from e]
  exact this

theorem Course.few {lum : Nat} {ls : List Lesson} (h : Course lum ls) :
    (ls.flatMap Lesson.glyphs).length = (taught ls).length ∧ (taught ls).length < W32 := by
  constructor
  · have := congrArg List.length (views_taught ls)
    rw [List.length_map, List.length_map] at this
    rw [← this]
    unfold allViews
    have hv : ∀ g ∈ ls.flatMap Lesson.glyphs, g.views.length = 1 := by
      intro g hg
      obtain ⟨w, f, _, e⟩ := glyphs_taught hg
      rw [e]; rfl
    generalize ls.flatMap Lesson.glyphs = gs at hv
    induction gs with
    | nil => rfl
    | cons g gs ih =>
      rw [List.flatMap_cons, List.length_append, hv g (by simp), List.length_cons,
        ih fun g' hg' => hv g' (by simp [hg'])]
      omega
  · have := h.size
    have : ∀ z : List (Image × List Nat), z.length ≤ (z.map fun p => p.2.length + 1).sum := by
      intro z
      induction z with
      | nil => simp
      | cons p z ih => simp only [List.map_cons, List.sum_cons, List.length_cons]; omega
    have := this (taught ls)
    simp only [W32]
    omega

open Classical in
/-- The characters of the word with the number `id`. -/
noncomputable def textOf (keys : List (List Nat)) (id : Nat) : List Nat :=
  if h : ∃ cs, (∀ c ∈ cs, Scalar c) ∧ encAll cs ∈ keys ∧ place keys (encAll cs) = id then h.choose else []

theorem textOf_place {keys : List (List Nat)} {cs : List Nat} (hs : ∀ c ∈ cs, Scalar c) (hm : encAll cs ∈ keys) :
    textOf keys (place keys (encAll cs)) = cs := by
  unfold textOf
  have h : ∃ ds, (∀ c ∈ ds, Scalar c) ∧ encAll ds ∈ keys ∧ place keys (encAll ds) = place keys (encAll cs) := ⟨cs, hs, hm, rfl⟩
  rw [dif_pos h]
  obtain ⟨h1, h2, h3⟩ := h.choose_spec
  exact encAll_inj h1 hs (place_inj h2 hm h3)

theorem loadDict_ok {S : StdSort} {ws : List (List Nat)} {dict : Option TextFile} (h : DictFile S ws dict) :
    ∃ E, loadDict dict = .ok E ∧ DictOf S ws E := by
  cases dict with
  | none =>
    have h : ws = [] := h
    subst h
    refine ⟨[], rfl, by simp, by simp, by decide, ?_⟩
    have hn : S.sort wordLt ([] : List (List Nat)) = [] :=
      List.length_eq_zero_iff.1 ((S.perm wordLt [] wordLt_strictWeak).length_eq)
    unfold dictOf allCodes
    rw [List.map_nil, Res.ok_bind, hn]
    rfl
  | some f =>
    obtain ⟨t, rfl, ht, hw, hsz⟩ := h
    obtain ⟨E, h1, h2, _⟩ := C58_compile_partial S ws [] 0 [] [] (fun w hm => (hw w hm).1) (fun w hm => (hw w hm).2)
      (by intro c hc; simp at hc) (by simpa [W32] using hsz)
    have e0 : encAll [] = [] := rfl
    simp only [List.replicate_zero, List.nil_append, e0, List.append_nil, if_true] at h1 h2
    unfold compileAndLoad at h1
    rw [ht, Res.ok_bind] at h1
    refine ⟨E, ?_, fun w hm => (hw w hm).1, fun w hm c hc => ((hw w hm).2 c hc).1, hsz, h2⟩
    unfold loadDict openText
    simp only []
    rw [Res.ok_bind, h1, Res.ok_bind]
    rfl

theorem loadInfos_ok {S : StdSort} {ls : List Lesson} {infos : Option TextFile} (h : InfoFile ls infos) {G : RGlyphs}
    {wm : StrMap} {fid : List Nat → Nat} {gs : List LGlyph} (hw : WordTable gs G wm fid)
    (hg : ∀ w, w ∈ (allViews gs).map LView.word ↔ ∃ p ∈ taught ls, p.2 = w) :
    ∃ I, loadInfos S G infos = .ok I ∧ InfosSorted I := by
  have key : ∀ r : List WWordLines, (∀ p ∈ r, ∃ i, wordIndexOf G p.str = .ok i) →
      ∃ I, wordsInfos S G r = .ok I ∧ InfosSorted I := by
    intro r hr
    obtain ⟨l, hl⟩ := infosLoop_total r hr
    have e : wordsInfos S G r = .ok (S.sort (fun a b => decide (a.word < b.word)) l) := by
      unfold wordsInfos
      rw [hl]; rfl
    exact ⟨_, e, (wordsInfos_sorted e).1⟩
  have hk : ∀ w, w ∈ wm.map Prod.fst ↔ ∃ p ∈ taught ls, p.2 = w := by
    intro w
    rw [hw.keys, hg]
  cases infos with
  | none => exact key [] (by simp)
  | some f =>
    obtain ⟨t, es, rfl, he, hes⟩ := h
    obtain ⟨s, e1, e2⟩ := wwordsLoop_eof (t.length + 1) (IS.of t) [] es ⟨rfl, rfl, by simp [IS.of]⟩ (by simp [IS.of]) he
    have e1 : wwordsRead (IS.of t) [] = .ok (keep es, s) := e1
    obtain ⟨I, h1, h2⟩ := key (keep es) (by
      intro p hp
      unfold keep at hp
      obtain ⟨e, hm, rfl⟩ := List.mem_map.1 hp
      rw [List.mem_filter, decide_eq_true_eq] at hm
      obtain ⟨h3, h4⟩ := hes e hm.1 hm.2
      refine hw.find e.word h3 (h4.imp (hk _).2 fun hg w hlast => ?_)
      obtain ⟨p, hp, rfl⟩ := (hk w).1 (List.mem_of_getLast? hlast)
      exact hg p hp fun q hq => getLast_greatest hw.ok.sorted hlast q.2 ((hk _).2 ⟨q, hq, rfl⟩))
    refine ⟨I, ?_, h2⟩
    unfold loadInfos openText
    simp only []
    rw [Res.ok_bind, e1, Res.ok_bind]
    unfold checkEof
    rw [e2, if_pos rfl, Res.ok_bind, h1]

/-- What the programs make of a course: the output of the two tools, and the tables of the recogniser. -/
theorem course_files {P : Type} [Dbl P] (S : StdSort) {lum : Nat} {ls : List Lesson} {infos dict : Option TextFile}
    {ws : List (List Nat)} (h : Course lum ls) (h4 : ∀ p ∈ taught ls, p.2.length % 4 ≠ 0) (hi : InfoFile ls infos)
    (hd : DictFile S ws dict) (image : FileEnv) (i : Image) (hl : loadImage image 128 = .ok i) :
    ∃ d g keys I E, Files S ((ls.flatMap Lesson.glyphs).map LGlyph.img) d g (textOf keys) I ws E ∧
      (∃ fid : List Nat → Nat, g.views = (ls.flatMap Lesson.glyphs).map fun gl => gl.views.map fun v =>
        (⟨place keys v.word, fid v.font⟩ : View)) ∧
      (∀ w, w ∈ keys ↔ ∃ p ∈ taught ls, p.2 = w) ∧
      ∀ ans, readLine P S g d I E i = .ok ans → learnAndRead P S lum (ls.map Lesson.job) image infos dict = .ok ans := by
  obtain ⟨t, ht, e1, _⟩ := C65_lines lum ls fun l hl => ⟨h.holds l hl, h.count l hl⟩
  have hread := h.readable
  have hletter := h.letter
  have hsmall := h.smallWords
  obtain ⟨hlen, hfew⟩ := h.few
  have hvt := views_taught ls
  have hgt : ∀ g ∈ ls.flatMap Lesson.glyphs, ∃ w font, (g.img, w) ∈ taught ls ∧ g.views = [⟨w, font, 2 ^ 32 - 1⟩] :=
    fun g hg => glyphs_taught hg
  obtain ⟨t', G, wm, fid, ht', e3, hw⟩ := rglyphsRead_words _ hread hsmall (by
    intro v hv
    have : v.word ∈ (taught ls).map Prod.snd := by rw [← hvt]; exact List.mem_map_of_mem hv
    obtain ⟨p, hp, e⟩ := List.mem_map.1 this
    rw [← e]
    exact h4 p hp)
  obtain ⟨I, e4, hI⟩ := loadInfos_ok (S := S) hi hw fun w => by rw [hvt, List.mem_map]
  obtain ⟨E, e5, hE⟩ := loadDict_ok hd
  have hk : ∀ w, w ∈ wm.map Prod.fst ↔ ∃ p ∈ taught ls, p.2 = w := by
    intro w
    rw [hw.keys, hvt, List.mem_map]
  generalize ls.flatMap Lesson.glyphs = gs at *
  obtain ⟨t'', d, ht'', hL, e2, e6⟩ := C66_features gs (fun g hg => (hread g hg).toGood) hletter
    (by simp only [W32] at hfew; omega)
  rw [ht] at ht' ht''
  cases ht'
  cases ht''
  have hL' : Learnt (gs.map LGlyph.img) ⟨d.tables, Ctxs.fresh⟩ := ⟨hL.strats, hL.rows⟩
  have hvl : G.views.length = gs.length := by rw [hw.views, List.length_map]
  refine ⟨⟨d.tables, Ctxs.fresh⟩, G, wm.map Prod.fst, I, E, ⟨hL', ?_, ?_, ?_, ?_, ?_, hI, hE⟩, ⟨fid, hw.views⟩, hk, ?_⟩
  · intro a ha
    obtain ⟨g, hg, rfl⟩ := List.mem_map.1 ha
    exact hletter g hg
  · rw [hvl, List.length_map]
  · rw [hw.views]
    intro hm
    obtain ⟨g, hg, e⟩ := List.mem_map.1 hm
    obtain ⟨w, f, _, ev⟩ := hgt g hg
    rw [ev] at e
    simp at e
  · have : G.views.map List.length = List.replicate gs.length 1 := by
      rw [hw.views, List.map_map, List.eq_replicate_iff]
      refine ⟨by simp, ?_⟩
      intro n hn
      obtain ⟨g, hg, rfl⟩ := List.mem_map.1 hn
      obtain ⟨w, f, _, ev⟩ := hgt g hg
      simp [ev]
    rw [this, List.sum_replicate_nat, hlen]
    simpa using hfew
  · intro l hl' v hv
    rw [hw.views] at hl'
    obtain ⟨g, hg, rfl⟩ := List.mem_map.1 hl'
    obtain ⟨u, hu, rfl⟩ := List.mem_map.1 hv
    obtain ⟨w, f, hp, ev⟩ := hgt g hg
    rw [ev, List.mem_singleton] at hu
    subst hu
    obtain ⟨cs, hcs, ecs⟩ := h.text _ hp
    simp only at ecs
    have hm : encAll cs ∈ wm.map Prod.fst := (hk _).2 ⟨_, hp, ecs⟩
    simp only [ecs]
    have htx := textOf_place hcs hm
    refine ⟨?_, ?_, ?_, ?_, ?_⟩
    · rw [htx]
      intro hn
      subst hn
      have := h4 _ hp
      simp only [ecs] at this
      exact this rfl
    · rw [htx]; exact hcs
    · rw [htx]; exact hw.ok.word_size _ hm
    · rw [htx]; exact (hw.words _ hm).1
    · rw [htx]; exact (hw.words _ hm).2
  · intro ans ha
    unfold readLine at ha
    obtain ⟨bw, hb, ha⟩ := Res.bind_eq_ok.1 ha
    have hsz : ¬ G.views.length ≠ Datas.size ⟨d.tables, Ctxs.fresh⟩ := by
      rw [learnt_size hL', hvl, List.length_map]
      simp
    have e6' : loadDatas (some (datasWrite d)) = .ok ⟨d.tables, Ctxs.fresh⟩ := e6
    have e3' : loadGlyphs (some t) = .ok G := by
      unfold loadGlyphs openText
      rw [Res.ok_bind, e3]
      rfl
    unfold learnAndRead
    rw [e1]
    simp only [Res.ok_bind, e2, ne_eq, not_true_eq_false, if_false]
    unfold program
    simp only [e5, Res.ok_bind, e6', e3', if_neg hsz, e4, hb, hl, ha]

section
variable {P : Type} [ScoreDbl P]

/-- What is read on every such line: as in C63, all spaces but the one behind a first word that is only punctuation. -/
theorem C67_exact_partial (S : StdSort) (lum : Nat) (ls : List Lesson) (infos dict : Option TextFile) (ws : List (List Nat))
    (image : FileEnv) (i : Image) (bs : List Box) (as : List Image) (texts : List (List Nat)) (h : Course lum ls)
    (h4 : ∀ p ∈ taught ls, p.2.length % 4 ≠ 0) (hinf : InfoFile ls infos) (hd : DictFile S ws dict)
    (hl : loadImage image 128 = .ok i) (hi : LineImage i) (hsp : ∀ b bs, segment i = .ok (b :: bs) → LowHeld b bs)
    (hs : segment i = .ok bs) (hp : Pictures i bs as) (hlen : texts.length = as.length)
    (hm : ∀ (k : Nat) a cs, as[k]? = some a → texts[k]? = some cs → Stands ls a cs)
    (hone : Uncut ws texts) :
    learnAndRead P S lum (ls.map Lesson.job) image infos dict = .ok ⟨encAll (spacedKept bs texts), 0, bs.length⟩ := by
  obtain ⟨d, g, keys, I, E, hf, ⟨fid, hv⟩, hk, hrun⟩ := course_files (P := P) S h h4 hinf hd image i hl
  have htext : ∀ (k : Nat) cs, texts[k]? = some cs → (∀ c ∈ cs, Scalar c) ∧ encAll cs ∈ keys := by
    intro k cs hc
    have hlt : k < as.length := by rw [← hlen]; exact (List.getElem?_eq_some_iff.1 hc).1
    obtain ⟨h1, ⟨p, hp, ha⟩, h2⟩ := hm k _ cs (List.getElem?_eq_getElem hlt) hc
    exact ⟨h1, (hk _).2 ⟨p, hp, h2 p hp ha⟩⟩
  have hmap : (texts.map fun cs => place keys (encAll cs)).map (textOf keys) = texts := by
    rw [List.map_map]
    conv => rhs; rw [← List.map_id texts]
    apply List.map_congr_left
    intro cs hc
    obtain ⟨k, hk', e⟩ := List.mem_iff_getElem.1 hc
    obtain ⟨h1, h2⟩ := htext k cs (by rw [List.getElem?_eq_getElem hk', e])
    exact textOf_place h1 h2
  have := C63_exact_partial (P := P) S _ d g (textOf keys) I ws E i bs as (texts.map fun cs => place keys (encAll cs)) hf hi hsp hs hp
    (by rw [List.length_map, hlen])
    (by
      intro k a id ha hid
      rw [List.getElem?_map] at hid
      obtain ⟨cs, hc, rfl⟩ := Option.map_eq_some_iff.1 hid
      obtain ⟨h1, ⟨p, hp, hal⟩, h2⟩ := hm k a cs ha hc
      constructor
      · obtain ⟨gl, hgl, e, _⟩ := taught_glyphs hp
        obtain ⟨n, hn, e'⟩ := List.mem_iff_getElem.1 hgl
        refine ⟨n, p.1, ?_, hal⟩
        rw [List.getElem?_map, List.getElem?_eq_getElem hn, e', Option.map_some, e]
      · rintro n l ⟨b, hb, hal'⟩ hl' v hv'
        rw [List.getElem?_map] at hb
        obtain ⟨gl, hgl, rfl⟩ := Option.map_eq_some_iff.1 hb
        rw [hv, List.getElem?_map, hgl, Option.map_some, Option.some.injEq] at hl'
        subst hl'
        obtain ⟨u, hu, rfl⟩ := List.mem_map.1 hv'
        obtain ⟨w, f, hw, ev⟩ := glyphs_taught (List.mem_of_getElem? hgl)
        rw [ev, List.mem_singleton] at hu
        subst hu
        exact congrArg (place keys) (h2 _ hw hal'))
    (by rw [hmap]; exact hone)
  rw [hmap] at this
  exact hrun _ this

/-- **C67** for words whose size is not a multiple of 4 bytes (C48), and lines whose first word is not only punctuation, or
that have no gap, or one before the first letter (C63); missing: other words and lines. -/
theorem C67_read_partial (S : StdSort) (lum : Nat) (ls : List Lesson) (infos dict : Option TextFile) (ws : List (List Nat))
    (image : FileEnv) (i : Image) (bs : List Box) (as : List Image) (texts : List (List Nat)) (h : Course lum ls)
    (h4 : ∀ p ∈ taught ls, p.2.length % 4 ≠ 0) (hinf : InfoFile ls infos) (hd : DictFile S ws dict)
    (hl : loadImage image 128 = .ok i) (hi : LineImage i) (hsp : ∀ b bs, segment i = .ok (b :: bs) → LowHeld b bs)
    (hs : segment i = .ok bs) (hp : Pictures i bs as) (hlen : texts.length = as.length)
    (hm : ∀ (k : Nat) a cs, as[k]? = some a → texts[k]? = some cs → Stands ls a cs)
    (hone : Uncut ws texts) (hfirst : ∀ k, 0 < k → Gap bs k → ¬ OnlyMarks bs texts k) :
    learnAndRead P S lum (ls.map Lesson.job) image infos dict = .ok ⟨encAll (spaced bs texts), 0, bs.length⟩ := by
  rw [C67_exact_partial S lum ls infos dict ws image i bs as texts h h4 hinf hd hl hi hsp hs hp hlen hm hone,
    spacedKept_eq hfirst]

/-- A line that was learnt from is read back: if letters that look alike were shown with the same word, without a
dictionary, the words of its text are printed, each character where it was, with the spaces of the picture. -/
theorem C67_own_line (S : StdSort) (lum : Nat) (ls : List Lesson) (infos : Option TextFile) (l : Lesson) (image : FileEnv)
    (texts : List (List Nat)) (h : Course lum ls) (h4 : ∀ p ∈ taught ls, p.2.length % 4 ≠ 0) (hinf : InfoFile ls infos)
    (hsame : ∀ p ∈ taught ls, ∀ q ∈ taught ls, Alike p.1 q.1 → p.2 = q.2) (hl : l ∈ ls)
    (hload : loadImage image 128 = .ok l.image) (hi : LineImage l.image)
    (hsp : ∀ b bs, segment l.image = .ok (b :: bs) → LowHeld b bs)
    (htexts : l.words = texts.map encAll) (hsc : ∀ cs ∈ texts, ∀ c ∈ cs, Scalar c) :
    learnAndRead P S lum (ls.map Lesson.job) image infos none =
      .ok ⟨encAll (spacedKept l.boxes texts), 0, l.boxes.length⟩ := by
  have hH := h.holds l hl
  obtain ⟨_, hpl, _⟩ := line_pics hH
  have hc := h.count l hl
  have hlen : texts.length = l.pics.length := by
    have := congrArg List.length htexts
    rw [List.length_map] at this
    omega
  refine C67_exact_partial S lum ls infos none [] image l.image l.boxes l.pics texts h h4 hinf rfl hload hi hsp hH.seg hH.pics
    hlen ?_ (uncut_nil _)
  intro k a cs ha hcs
  have hw : l.words[k]? = some (encAll cs) := by rw [htexts, List.getElem?_map, hcs]; rfl
  have hm : (a, encAll cs) ∈ taught ls := by
    refine List.mem_flatMap.2 ⟨l, hl, List.mem_of_getElem? (i := k) ?_⟩
    rw [List.getElem?_zip_eq_some]
    exact ⟨ha, hw⟩
  refine ⟨hsc cs (List.mem_of_getElem? hcs), ⟨_, hm, ?_⟩, fun p hp hal => hsame p hp _ hm hal⟩
  obtain ⟨gl, hgl, e, _⟩ := taught_glyphs hm
  have := h.letter gl hgl
  rw [e] at this
  exact alike_refl this

end

/-! ### Where it fails -/

theorem lesson_course : Course 128 [lesson] := by
  have hl : ∀ l ∈ [lesson], l = lesson := fun l h => List.mem_singleton.1 h
  have ht : taught [lesson] = [(block, [97]), (bar, [33]), (block, [97])] := rfl
  refine ⟨?_, ?_, ?_, ?_, ?_, by rw [ht]; decide⟩
  · intro l h; rw [hl l h]; exact lesson_holds
  · intro l h; rw [hl l h]; rfl
  · intro l h; rw [hl l h]; decide
  · intro l h; rw [hl l h]; exact ⟨by decide +kernel, by decide +kernel⟩
  · intro p hp
    rw [ht] at hp
    simp only [List.mem_cons, List.not_mem_nil, or_false] at hp
    rcases hp with rfl | rfl | rfl
    · exact ⟨[97], by simp [Scalar], rfl⟩
    · exact ⟨[33], by simp [Scalar], rfl⟩
    · exact ⟨[97], by simp [Scalar], rfl⟩

/-- `! a!` is read as `!a!`. -/
theorem C67_space_lost :
    learnAndRead Frac insertionSort 128 [lesson.job] (ppm barGap) none none = .ok ⟨[33, 97, 33], 0, 3⟩ := by decide +kernel

/-- With the word `abcd` in place of `a` the program writes out of bounds while it reads the glyphs. -/
theorem C67_four_bytes :
    learnAndRead Frac insertionSort 128 [⟨ppm blockGap, some (bytes "abcd ! abcd"), bytes "font"⟩] (ppm blockGap) none none =
      .ub := by decide +kernel

theorem C67_false : ¬ C67_statement Frac insertionSort := by
  intro h
  obtain ⟨n1, n2⟩ := block_bar
  have a1 := alike_refl (twoLetters block (by simp))
  have a2 := alike_refl (twoLetters bar (by simp))
  have s1 : Stands [lesson] block [97] := by
    refine ⟨by simp [Scalar], ⟨(block, [97]), by simp [taught, lesson], a1⟩, ?_⟩
    intro p hp hal
    simp only [taught, lesson, List.flatMap_cons, List.flatMap_nil, List.append_nil, List.zip_cons_cons, List.zip_nil_left,
      List.mem_cons, List.not_mem_nil, or_false] at hp
    rcases hp with rfl | rfl | rfl
    · rfl
    · exact absurd hal n2
    · rfl
  have s2 : Stands [lesson] bar [33] := by
    refine ⟨by simp [Scalar], ⟨(bar, [33]), by simp [taught, lesson], a2⟩, ?_⟩
    intro p hp hal
    simp only [taught, lesson, List.flatMap_cons, List.flatMap_nil, List.append_nil, List.zip_cons_cons, List.zip_nil_left,
      List.mem_cons, List.not_mem_nil, or_false] at hp
    rcases hp with rfl | rfl | rfl
    · exact absurd hal n1
    · rfl
    · exact absurd hal n1
  have := h 128 [lesson] none none [] (ppm barGap) barGap [⟨0, 0, 1, 2⟩, ⟨6, 0, 2, 2⟩, ⟨9, 0, 1, 2⟩] [bar, block, bar]
    [[33], [97], [33]] lesson_course trivial rfl (by decide +kernel) barGap_line
    barGap_segment ⟨by decide, by decide, by decide, trivial⟩ rfl
    (by
      intro k a cs ha hcs
      rcases k with _ | _ | _ | k
      · cases ha; cases hcs; exact s2
      · cases ha; cases hcs; exact s1
      · cases ha; cases hcs; exact s2
      · simp at ha)
  rw [show [lesson].map Lesson.job = [lesson.job] from rfl, C67_space_lost] at this
  exact absurd this (by decide)

/-- The line that was learnt from, with a dictionary and a file of positions. -/
example : learnAndRead Frac insertionSort 128 [lesson.job] (ppm blockGap) (some (some (bytes "a 0 1 2 4\n! 0 0 0 0\n")))
    (some (some (bytes "97 1 0 1\n"))) = .ok ⟨bytes "a! a", 0, 3⟩ ∧
    DictFile insertionSort [[97]] (some (some (bytes "97 1 0 1\n"))) := by
  refine ⟨by decide +kernel, _, rfl, by decide +kernel, ?_, by decide⟩
  unfold Line
  decide

end Ppocr.Props

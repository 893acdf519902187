import Verif.Proofs.NormalizeOrder
import Verif.Props.Learn

/-! # Learning, normalising, then reading (C77) -/

namespace Ppocr.Props
open Ppocr Spec

/-! ### Helper lemmas -/

/-- A sum over the views. -/
def weigh (f : LView → Nat) (gs : List LGlyph) : Nat := ((allViews gs).map f).sum

theorem weigh_append (f : LView → Nat) (a b : List LGlyph) : weigh f (a ++ b) = weigh f a + weigh f b := by
  unfold weigh allViews
  rw [List.flatMap_append, List.map_append, List.sum_append_nat]

theorem weigh_perm (f : LView → Nat) {a b : List LGlyph} (h : a.Perm b) : weigh f a = weigh f b :=
  ((h.flatMap_right _).map f).sum_nat

theorem sum_sublist {f : LView → Nat} {a b : List LView} (h : a.Sublist b) : (a.map f).sum ≤ (b.map f).sum := by
  induction h with
  | slnil => simp
  | cons x _ ih => simp only [List.map_cons, List.sum_cons]; omega
  | cons_cons x _ ih => simp only [List.map_cons, List.sum_cons]; omega

theorem mergeLoop_weigh (S : StdSort) (f : LView → Nat) : ∀ (fuel : Nat) (l out : List LGlyph),
    mergeLoop S fuel l = .ok out → weigh f out ≤ weigh f l
  | fuel, [], out, h => by
    have : mergeLoop S fuel [] = .ok [] := by cases fuel <;> rfl
    rw [this] at h
    cases h
    exact Nat.le_refl _
  | 0, _ :: _, _, h => by simp [mergeLoop] at h
  | fuel + 1, g :: rest, out, h => by
    rw [mergeLoop, Res.bind_eq_ok] at h
    obtain ⟨pos, _, h⟩ := h
    rw [Res.bind_eq_ok] at h
    obtain ⟨vs, ev, h⟩ := h
    rw [Res.bind_eq_ok] at h
    obtain ⟨r, er, h⟩ := h
    cases h
    have ih := mergeLoop_weigh S f fuel _ _ er
    obtain ⟨vs', ev', hsub, _⟩ := uniqueBy_mem (S.sort viewLt (g.views ++ (rest.take pos).flatMap LGlyph.views))
    rw [ev] at ev'
    cases ev'
    have h1 := sum_sublist (f := f) hsub
    have h2 := ((S.perm viewLt (g.views ++ (rest.take pos).flatMap LGlyph.views) viewLt_strictWeak).map f).sum_nat
    have h3 : weigh f rest = weigh f (rest.take pos) + weigh f (rest.drop pos) := by
      rw [← weigh_append, List.take_append_drop]
    have h4 : ((g.views ++ (rest.take pos).flatMap LGlyph.views).map f).sum = (g.views.map f).sum + weigh f (rest.take pos) := by
      rw [List.map_append, List.sum_append_nat]
      rfl
    have h5 : ∀ (x : LGlyph) (y : List LGlyph), weigh f (x :: y) = (x.views.map f).sum + weigh f y := by
      intro x y
      rw [show x :: y = [x] ++ y from rfl, weigh_append]
      simp [weigh, allViews]
    rw [h5, h5]
    simp only at *
    omega

theorem normalizeGlyphs_weigh (S : StdSort) (f : LView → Nat) {gs out : List LGlyph} (wf : ∀ g ∈ gs, g.img.Full)
    (h : normalizeGlyphs S gs = .ok out) : weigh f out ≤ weigh f gs := by
  obtain ⟨s, e, hp, _⟩ := imgSort_ok S gs wf
  unfold normalizeGlyphs at h
  rw [e, Res.ok_bind, Res.bind_eq_ok] at h
  obtain ⟨k, _, h⟩ := h
  rw [Res.bind_eq_ok] at h
  obtain ⟨r, er, h⟩ := h
  cases h
  have h1 := mergeLoop_weigh S f _ _ _ er
  rw [weigh_append, ← weigh_perm f hp]
  have h3 : weigh f s = weigh f (s.take k) + weigh f (s.drop k) := by
    rw [← weigh_append, List.take_append_drop]
  omega

/-- The glyphs hold what was taught: the same pairs of a picture and a word. -/
structure Teaches (ls : List Lesson) (gs : List LGlyph) : Prop where
  same : ∀ a w, (a, w) ∈ taught ls ↔ ∃ g ∈ gs, g.img = a ∧ ∃ v ∈ g.views, v.word = w
  readable : ∀ g ∈ gs, g.Readable
  letter : ∀ g ∈ gs, Sized g.img
  small : SmallWords gs

theorem Teaches.words {ls : List Lesson} {gs : List LGlyph} (h : Teaches ls gs) (w : List Nat) :
    w ∈ (allViews gs).map LView.word ↔ ∃ p ∈ taught ls, p.2 = w := by
  rw [List.mem_map]
  unfold allViews
  constructor
  · rintro ⟨v, hv, rfl⟩
    obtain ⟨g, hg, hv⟩ := List.mem_flatMap.1 hv
    exact ⟨(g.img, v.word), (h.same _ _).2 ⟨g, hg, rfl, v, hv, rfl⟩, rfl⟩
  · rintro ⟨p, hp, rfl⟩
    obtain ⟨g, hg, _, v, hv, e⟩ := (h.same p.1 p.2).1 hp
    exact ⟨v, List.mem_flatMap.2 ⟨g, hg, hv⟩, e⟩

theorem views_sum_le (gs : List LGlyph) : (gs.map fun g => g.views.length).sum ≤ ((allViews gs).map fun v => v.word.length + 1).sum := by
  have h : ∀ vs : List LView, vs.length ≤ (vs.map fun v => v.word.length + 1).sum := by
    intro vs
    induction vs with
    | nil => simp
    | cons v vs ih => simp only [List.map_cons, List.sum_cons, List.length_cons]; omega
  have := h (allViews gs)
  unfold allViews at *
  rw [List.length_flatMap] at this
  exact this

/-- What the recogniser makes of such glyphs. -/
theorem taught_files {P : Type} [Dbl P] (S : StdSort) {lum : Nat} {ls : List Lesson} {gs : List LGlyph}
    {infos dict : Option TextFile} {ws : List (List Nat)} (h : Course lum ls) (hT : Teaches ls gs)
    (h4 : ∀ p ∈ taught ls, p.2.length % 4 ≠ 0) (hi : InfoFile ls infos)
    (hd : DictFile S ws dict) (image : FileEnv) (i : Image) (hl : loadImage image 128 = .ok i) :
    ∃ t d g keys I E, glyphsWrite gs = .ok t ∧ writeDatas (some t) = .ok (0, datasWrite d) ∧
      Files S (gs.map LGlyph.img) ⟨d.tables, Ctxs.fresh⟩ g (textOf keys) I ws E ∧
      (∃ fid : List Nat → Nat, g.views = gs.map fun gl => gl.views.map fun v =>
        (⟨place keys v.word, fid v.font⟩ : View)) ∧
      (∀ w, w ∈ keys ↔ ∃ p ∈ taught ls, p.2 = w) ∧
      ∀ ans, readLine P S g ⟨d.tables, Ctxs.fresh⟩ I E i = .ok ans →
        program P S ⟨some t, some (datasWrite d), image, infos, dict⟩ = .ok ans := by
  have hread := hT.readable
  have hletter := hT.letter
  have hsmall := hT.small
  obtain ⟨t', G, wm, fid, ht', e3, hw⟩ := rglyphsRead_words _ hread hsmall (by
    intro v hv
    obtain ⟨p, hp, e⟩ := (hT.words v.word).1 (List.mem_map_of_mem hv)
    rw [← e]
    exact h4 p hp)
  obtain ⟨I, e4, hI⟩ := loadInfos_ok (S := S) hi hw hT.words
  obtain ⟨E, e5, hE⟩ := loadDict_ok hd
  have hk : ∀ w, w ∈ wm.map Prod.fst ↔ ∃ p ∈ taught ls, p.2 = w := by
    intro w
    rw [hw.keys, hT.words]
  have hvs := views_sum_le gs
  unfold SmallWords at hsmall
  have hlen : gs.length ≤ (gs.map fun g => g.views.length).sum := by
    clear hvs
    have hr := hread
    clear hread hletter hsmall hT e3 hw ht'
    induction gs with
    | nil => simp
    | cons g gs ih =>
      have h1 := List.length_pos_iff.2 (hr g (by simp)).some_view
      have := ih fun g hg => hr g (by simp [hg])
      simp only [List.length_cons, List.map_cons, List.sum_cons]
      omega
  obtain ⟨t'', d, ht'', hL, e2, e6⟩ := C66_features gs (fun g hg => (hread g hg).toGood) hletter
    (by simp only [W32] at hsmall; omega)
  rw [ht'] at ht''
  cases ht''
  have hL' : Learnt (gs.map LGlyph.img) ⟨d.tables, Ctxs.fresh⟩ := ⟨hL.strats, hL.rows⟩
  have hvl : G.views.length = gs.length := by rw [hw.views, List.length_map]
  refine ⟨t', d, G, wm.map Prod.fst, I, E, ht', e2, ⟨hL', ?_, ?_, ?_, ?_, ?_, hI, hE⟩, ⟨fid, hw.views⟩, hk, ?_⟩
  · intro a ha
    obtain ⟨g, hg, rfl⟩ := List.mem_map.1 ha
    exact hletter g hg
  · rw [hvl, List.length_map]
  · rw [hw.views]
    intro hm
    obtain ⟨g, hg, e⟩ := List.mem_map.1 hm
    exact (hread g hg).some_view (List.map_eq_nil_iff.1 e)
  · rw [hw.views, List.map_map]
    have : (List.length ∘ fun g : LGlyph => g.views.map fun v => (⟨place (wm.map Prod.fst) v.word, fid v.font⟩ : View)) =
        fun g : LGlyph => g.views.length := by
      funext g; simp
    rw [this]
    omega
  · intro l hl' v hv
    rw [hw.views] at hl'
    obtain ⟨g, hg, rfl⟩ := List.mem_map.1 hl'
    obtain ⟨u, hu, rfl⟩ := List.mem_map.1 hv
    have hp := (hT.same g.img u.word).2 ⟨g, hg, rfl, u, hu, rfl⟩
    obtain ⟨cs, hcs, ecs⟩ := h.text _ hp
    simp only at ecs
    have hm : encAll cs ∈ wm.map Prod.fst := (hk _).2 ⟨_, hp, ecs⟩
    simp only [ecs]
    have htx := textOf_place hcs hm
    refine ⟨?_, ?_, ?_, ?_, ?_⟩
    · rw [htx]
      intro hn
      subst hn
      have := h4 _ hp
      simp only [ecs] at this
      exact this rfl
    · rw [htx]; exact hcs
    · rw [htx]; exact hw.ok.word_size _ hm
    · rw [htx]; exact (hw.words _ hm).1
    · rw [htx]; exact (hw.words _ hm).2
  · intro ans ha
    unfold readLine at ha
    obtain ⟨bw, hb, ha⟩ := Res.bind_eq_ok.1 ha
    have hsz : ¬ G.views.length ≠ Datas.size ⟨d.tables, Ctxs.fresh⟩ := by
      rw [learnt_size hL', hvl, List.length_map]
      simp
    have e6' : loadDatas (some (datasWrite d)) = .ok ⟨d.tables, Ctxs.fresh⟩ := e6
    have e3' : loadGlyphs (some t') = .ok G := by
      unfold loadGlyphs openText
      rw [Res.ok_bind, e3]
      rfl
    unfold program
    simp only [e5, Res.ok_bind, e6', e3', if_neg hsz, e4, hb, hl, ha]

/-- What is read with such glyphs on a line whose letters were all shown with one word. -/
theorem taught_read {P : Type} [ScoreDbl P] (S : StdSort) {lum : Nat} {ls : List Lesson} {gs : List LGlyph}
    {infos dict : Option TextFile} {ws : List (List Nat)} {image : FileEnv} {i : Image} {bs : List Box} {as : List Image}
    {texts : List (List Nat)} (h : Course lum ls) (hT : Teaches ls gs)
    (h4 : ∀ p ∈ taught ls, p.2.length % 4 ≠ 0) (hinf : InfoFile ls infos) (hd : DictFile S ws dict)
    (hl : loadImage image 128 = .ok i) (hi : LineImage i) (hsp : ∀ b bs, segment i = .ok (b :: bs) → LowHeld b bs)
    (hs : segment i = .ok bs) (hp : Pictures i bs as) (hlen : texts.length = as.length)
    (hm : ∀ (k : Nat) a cs, as[k]? = some a → texts[k]? = some cs → Stands ls a cs)
    (hone : Uncut ws texts) :
    ∃ t d, glyphsWrite gs = .ok t ∧ writeDatas (some t) = .ok (0, datasWrite d) ∧
      program P S ⟨some t, some (datasWrite d), image, infos, dict⟩ = .ok ⟨encAll (spacedKept bs texts), 0, bs.length⟩ := by
  obtain ⟨t, d, g, keys, I, E, et, ed, hf, ⟨fid, hv⟩, hk, hrun⟩ := taught_files (P := P) S h hT h4 hinf hd image i hl
  have htext : ∀ (k : Nat) cs, texts[k]? = some cs → (∀ c ∈ cs, Scalar c) ∧ encAll cs ∈ keys := by
    intro k cs hc
    have hlt : k < as.length := by rw [← hlen]; exact (List.getElem?_eq_some_iff.1 hc).1
    obtain ⟨h1, ⟨p, hp, ha⟩, h2⟩ := hm k _ cs (List.getElem?_eq_getElem hlt) hc
    exact ⟨h1, (hk _).2 ⟨p, hp, h2 p hp ha⟩⟩
  have hmap : (texts.map fun cs => place keys (encAll cs)).map (textOf keys) = texts := by
    rw [List.map_map]
    conv => rhs; rw [← List.map_id texts]
    apply List.map_congr_left
    intro cs hc
    obtain ⟨k, hk', e⟩ := List.mem_iff_getElem.1 hc
    obtain ⟨h1, h2⟩ := htext k cs (by rw [List.getElem?_eq_getElem hk', e])
    exact textOf_place h1 h2
  have := C63_exact_partial (P := P) S _ _ g (textOf keys) I ws E i bs as (texts.map fun cs => place keys (encAll cs)) hf hi hsp hs hp
    (by rw [List.length_map, hlen])
    (by
      intro k a id ha hid
      rw [List.getElem?_map] at hid
      obtain ⟨cs, hc, rfl⟩ := Option.map_eq_some_iff.1 hid
      obtain ⟨h1, ⟨p, hp, hal⟩, h2⟩ := hm k a cs ha hc
      constructor
      · obtain ⟨gl, hgl, e, _⟩ := (hT.same p.1 p.2).1 hp
        obtain ⟨n, hn, e'⟩ := List.mem_iff_getElem.1 hgl
        refine ⟨n, p.1, ?_, hal⟩
        rw [List.getElem?_map, List.getElem?_eq_getElem hn, e', Option.map_some, e]
      · rintro n l ⟨b, hb, hal'⟩ hl' v hv'
        rw [List.getElem?_map] at hb
        obtain ⟨gl, hgl, rfl⟩ := Option.map_eq_some_iff.1 hb
        rw [hv, List.getElem?_map, hgl, Option.map_some, Option.some.injEq] at hl'
        subst hl'
        obtain ⟨u, hu, rfl⟩ := List.mem_map.1 hv'
        have hw := (hT.same gl.img u.word).2 ⟨gl, List.mem_of_getElem? hgl, rfl, u, hu, rfl⟩
        exact congrArg (place keys) (h2 _ hw hal'))
    (by rw [hmap]; exact hone)
  rw [hmap] at this
  exact ⟨t, d, et, ed, hrun _ this⟩

theorem course_teaches {lum : Nat} {ls : List Lesson} (h : Course lum ls) : Teaches ls (ls.flatMap Lesson.glyphs) := by
  refine ⟨?_, h.readable, h.letter, h.smallWords⟩
  intro a w
  constructor
  · intro hm
    obtain ⟨l, hl, hz⟩ := List.mem_flatMap.1 hm
    refine ⟨⟨a, [⟨w, l.job.font, 2 ^ 32 - 1⟩]⟩, List.mem_flatMap.2 ⟨l, hl, ?_⟩, rfl, _, List.mem_singleton.2 rfl, rfl⟩
    unfold Lesson.glyphs
    rw [zipWith_glyphs]
    exact List.mem_map.2 ⟨(a, w), hz, rfl⟩
  · rintro ⟨g, hg, rfl, v, hv, rfl⟩
    obtain ⟨w, f, hp, ev⟩ := glyphs_taught hg
    rw [ev, List.mem_singleton] at hv
    subst hv
    exact hp

theorem merged_teaches (S : StdSort) {ls : List Lesson} {gs out : List LGlyph} (h : Teaches ls gs)
    (ho : normalizeGlyphs S gs = .ok out) : Teaches ls out := by
  have hfull : ∀ g ∈ gs, g.img.Full := fun g hg => (h.readable g hg).img.full
  obtain ⟨out', eo, hm, hv⟩ := normalizeGlyphs_ok S gs hfull
  rw [ho] at eo
  cases eo
  have hsmall : SmallWords out := Nat.lt_of_le_of_lt (normalizeGlyphs_weigh S (fun v => v.word.length + 1) hfull ho) h.small
  have hcount : viewCount gs ≤ maxU := by
    have h1 := views_sum_le gs
    have h2 := h.small
    unfold SmallWords at h2
    unfold viewCount
    rw [List.length_flatMap]
    simp only [W32, maxU] at *
    omega
  have hgood := merged_good hm (fun g hg => (h.readable g hg).toGood) fun g hg => Nat.le_trans (hv g hg) hcount
  have himg : ∀ g ∈ out, ∃ g' ∈ gs, g'.img = g.img := fun g hg => (hm.images g.img).1 ⟨g, hg, rfl⟩
  refine ⟨?_, ?_, ?_, hsmall⟩
  · intro a w
    rw [h.same]
    constructor
    · rintro ⟨g, hg, rfl, v, hv, rfl⟩
      obtain ⟨g', hg', e⟩ := (hm.images g.img).2 ⟨g, hg, rfl⟩
      exact ⟨g', hg', e, v, (hm.views g' hg' v).2 ⟨g, hg, e.symm, hv⟩, rfl⟩
    · rintro ⟨g, hg, rfl, v, hv, rfl⟩
      obtain ⟨g', hg', e, hv'⟩ := (hm.views g hg v).1 hv
      exact ⟨g', hg', e, v, hv', rfl⟩
  · intro g hg
    obtain ⟨g', hg', e⟩ := himg g hg
    refine ⟨hgood g hg, ?_, e ▸ (h.readable g' hg').no_nl⟩
    obtain ⟨v, hv'⟩ := List.exists_mem_of_ne_nil _ (h.readable g' hg').some_view
    exact List.ne_nil_of_mem ((hm.views g hg v).2 ⟨g', hg', e, hv'⟩)
  · intro g hg
    obtain ⟨g', hg', e⟩ := himg g hg
    exact e ▸ h.letter g' hg'

/-- `write_glyphs` on each group of jobs, `normalize_glyphs` on the outputs, `write_datas` on its output, then
`ocr2_extract_text` with the output of both. -/
def learnNormalized (P : Type) [Dbl P] (S : StdSort) (lum : Nat) (groups : List (List Job)) (image : FileEnv)
    (infos dict : Option TextFile) : Res Answer := do
  let files ← groups.foldr (fun jobs r => do
    let g := writeGlyphs lum jobs
    g.ended
    let fs ← r
    return some g.out :: fs) (.ok [])
  let n ← normalizeMain S files
  if n.1 ≠ 0 then .throw
  else do
    let r ← writeDatas (some n.2)
    if r.1 ≠ 0 then .throw else program P S ⟨some n.2, some r.2, image, infos, dict⟩

theorem outputs_ok {lum : Nat} : ∀ lss : List (List Lesson),
    (∀ ls ∈ lss, ∀ l ∈ ls, l.Holds lum ∧ l.words.length = l.boxes.length) →
    ∃ texts : List (List Nat), (lss.map fun ls => glyphsWrite (ls.flatMap Lesson.glyphs)) = texts.map Res.ok ∧
      ((lss.map fun ls => ls.map Lesson.job).foldr (fun jobs r => do
        let g := writeGlyphs lum jobs
        g.ended
        let fs ← r
        return some g.out :: fs) (.ok [])) = .ok (texts.map some)
  | [], _ => ⟨[], rfl, rfl⟩
  | ls :: lss, h => by
    obtain ⟨texts, e1, e2⟩ := outputs_ok lss fun ls hls => h ls (by simp [hls])
    obtain ⟨t, ht, e, _⟩ := C65_lines lum ls (h ls (by simp))
    refine ⟨t :: texts, by rw [List.map_cons, List.map_cons, ht, e1], ?_⟩
    rw [List.map_cons, List.foldr_cons, e2, e]
    rfl

theorem flatten_glyphs (lss : List (List Lesson)) :
    (lss.map fun ls => ls.flatMap Lesson.glyphs).flatten = lss.flatten.flatMap Lesson.glyphs := by
  induction lss with
  | nil => rfl
  | cons a l ih => rw [List.map_cons, List.flatten_cons, List.flatten_cons, List.flatMap_append, ih]

/-- What `normalize_glyphs` and `write_datas` are given and give. -/
theorem normalized_ok {P : Type} [Dbl P] (S : StdSort) {lum : Nat} {lss : List (List Lesson)} (hne : lss ≠ [])
    (h : Course lum lss.flatten) : ∃ gs, Teaches lss.flatten gs ∧ ∀ t d image infos dict, glyphsWrite gs = .ok t →
      writeDatas (some t) = .ok (0, d) →
        learnNormalized P S lum (lss.map fun ls => ls.map Lesson.job) image infos dict =
          program P S ⟨some t, some d, image, infos, dict⟩ := by
  obtain ⟨texts, et, ef⟩ := outputs_ok (lum := lum) lss fun ls hls l hl =>
    have hm := List.mem_flatten.2 ⟨ls, hls, hl⟩
    ⟨h.holds l hm, h.count l hm⟩
  have hT := course_teaches h
  have efl : (lss.map fun ls => ls.flatMap Lesson.glyphs).flatten = lss.flatten.flatMap Lesson.glyphs := by
    exact flatten_glyphs lss
  obtain ⟨out, eo, _⟩ := normalizeGlyphs_ok S _ fun g hg => (hT.readable g hg).img.full
  refine ⟨out, merged_teaches S hT eo, ?_⟩
  intro t d image infos dict ht hd
  have hr := readGlyphFiles_write (lss.map fun ls => ls.flatMap Lesson.glyphs) texts [] (by
    intro gs hgs g hg
    refine (hT.readable g ?_).toGood
    rw [← efl]
    exact List.mem_flatten.2 ⟨gs, hgs, hg⟩) (by rw [List.map_map]; exact et)
  have htx : texts ≠ [] := by
    intro e
    rw [e] at et
    exact hne (List.map_eq_nil_iff.1 et)
  unfold learnNormalized
  rw [ef, Res.ok_bind]
  unfold normalizeMain
  rw [if_neg (by simpa using htx), hr, Res.ok_bind]
  simp only [List.nil_append]
  rw [efl, eo, Res.ok_bind, ht]
  simp only [Res.ok_bind, Res.pure_eq, hd, ne_eq, not_true_eq_false, if_false]

/-- Full statement of **C77**: where both ways give an answer, the answer is the same with `normalize_glyphs` as without. -/
def C77_statement (P : Type) [Dbl P] (S : StdSort) : Prop :=
  ∀ (lum : Nat) (groups : List (List Job)) (image : FileEnv) (infos dict : Option TextFile) (x y : Answer),
    learnAndRead P S lum groups.flatten image infos dict = .ok x →
    learnNormalized P S lum groups image infos dict = .ok y → x = y

/-- The order in which the lines are learnt, and how they are spread over the glyph files, does not matter once the files
are normalised. Nothing is assumed about the line that is read. -/
theorem C77_order {P : Type} [Dbl P] (S : StdSort) (lum : Nat) (lss lss' : List (List Lesson)) (image : FileEnv)
    (infos dict : Option TextFile) (hne : lss ≠ []) (hne' : lss' ≠ []) (hp : lss.flatten.Perm lss'.flatten)
    (h : ∀ l ∈ lss.flatten, l.Holds lum ∧ l.words.length = l.boxes.length ∧ Token l.job.font) :
    learnNormalized P S lum (lss.map fun ls => ls.map Lesson.job) image infos dict =
      learnNormalized P S lum (lss'.map fun ls => ls.map Lesson.job) image infos dict := by
  have key : ∀ ks : List (List Lesson), ks ≠ [] →
      (∀ l ∈ ks.flatten, l.Holds lum ∧ l.words.length = l.boxes.length ∧ Token l.job.font) →
      ∃ texts : List (List Nat), ((ks.map fun ls => ls.map Lesson.job).foldr (fun jobs r => do
        let g := writeGlyphs lum jobs
        g.ended
        let fs ← r
        return some g.out :: fs) (.ok [])) = .ok (texts.map some) ∧
      (∀ g ∈ ks.flatten.flatMap Lesson.glyphs, g.Good) ∧
      normalizeMain S (texts.map some) = (normalizeGlyphs S (ks.flatten.flatMap Lesson.glyphs)).bind fun out =>
        (glyphsWrite out).bind fun t => .ok (0, t) := by
    intro ks hk hh
    obtain ⟨texts, et, ef⟩ := outputs_ok (lum := lum) ks fun ls hls l hl =>
      have hm := hh l (List.mem_flatten.2 ⟨ls, hls, hl⟩)
      ⟨hm.1, hm.2.1⟩
    have hgood : ∀ g ∈ ks.flatten.flatMap Lesson.glyphs, g.Good := by
      intro g hg
      obtain ⟨l, hl, hg⟩ := List.mem_flatMap.1 hg
      exact (line_readable (hh l hl).1 (hh l hl).2.2 g hg).toGood
    have efl := flatten_glyphs ks
    have hr := readGlyphFiles_write (ks.map fun ls => ls.flatMap Lesson.glyphs) texts [] (by
      intro gs hgs g hg
      refine hgood g ?_
      rw [← efl]
      exact List.mem_flatten.2 ⟨gs, hgs, hg⟩) (by rw [List.map_map]; exact et)
    have htx : texts ≠ [] := by
      intro e
      rw [e] at et
      exact hk (List.map_eq_nil_iff.1 et)
    refine ⟨texts, ef, hgood, ?_⟩
    unfold normalizeMain
    rw [if_neg (by simpa using htx), hr, Res.ok_bind]
    simp only [List.nil_append]
    rw [efl]
    rfl
  obtain ⟨t1, a1, g1, b1⟩ := key lss hne h
  obtain ⟨t2, a2, _, b2⟩ := key lss' hne' fun l hl => h l (hp.mem_iff.2 hl)
  unfold learnNormalized
  rw [a1, a2, Res.ok_bind, Res.ok_bind, b1, b2,
    normalizeGlyphs_perm S S (hp.flatMap_right Lesson.glyphs) fun g hg => (g1 g hg).img.full]

section
variable {P : Type} [ScoreDbl P]

/-- Through `normalize_glyphs`, what is read on every line of letters that were shown with one word: as in C67. -/
theorem C77_exact_partial (S : StdSort) (lum : Nat) (lss : List (List Lesson)) (infos dict : Option TextFile)
    (ws : List (List Nat)) (image : FileEnv) (i : Image) (bs : List Box) (as : List Image) (texts : List (List Nat))
    (hne : lss ≠ []) (h : Course lum lss.flatten) (h4 : ∀ p ∈ taught lss.flatten, p.2.length % 4 ≠ 0)
    (hinf : InfoFile lss.flatten infos) (hd : DictFile S ws dict) (hl : loadImage image 128 = .ok i) (hi : LineImage i)
    (hsp : ∀ b bs, segment i = .ok (b :: bs) → LowHeld b bs) (hs : segment i = .ok bs) (hp : Pictures i bs as)
    (hlen : texts.length = as.length)
    (hm : ∀ (k : Nat) a cs, as[k]? = some a → texts[k]? = some cs → Stands lss.flatten a cs)
    (hone : Uncut ws texts) :
    learnNormalized P S lum (lss.map fun ls => ls.map Lesson.job) image infos dict =
      .ok ⟨encAll (spacedKept bs texts), 0, bs.length⟩ := by
  obtain ⟨gs, hT, hrun⟩ := normalized_ok (P := P) S hne h
  obtain ⟨t, d, et, ed, ep⟩ := taught_read (P := P) S h hT h4 hinf hd hl hi hsp hs hp hlen hm hone
  rw [hrun t _ image infos dict et ed, ep]

/-- On such a line nothing is lost or won by `normalize_glyphs`, nor by how the lines are spread over the glyph files. -/
theorem C77_same_partial (S : StdSort) (lum : Nat) (lss : List (List Lesson)) (infos dict : Option TextFile)
    (ws : List (List Nat)) (image : FileEnv) (i : Image) (bs : List Box) (as : List Image) (texts : List (List Nat))
    (hne : lss ≠ []) (h : Course lum lss.flatten) (h4 : ∀ p ∈ taught lss.flatten, p.2.length % 4 ≠ 0)
    (hinf : InfoFile lss.flatten infos) (hd : DictFile S ws dict) (hl : loadImage image 128 = .ok i) (hi : LineImage i)
    (hsp : ∀ b bs, segment i = .ok (b :: bs) → LowHeld b bs) (hs : segment i = .ok bs) (hp : Pictures i bs as)
    (hlen : texts.length = as.length)
    (hm : ∀ (k : Nat) a cs, as[k]? = some a → texts[k]? = some cs → Stands lss.flatten a cs)
    (hone : Uncut ws texts) :
    learnNormalized P S lum (lss.map fun ls => ls.map Lesson.job) image infos dict =
      learnAndRead P S lum (lss.flatten.map Lesson.job) image infos dict := by
  rw [C77_exact_partial S lum lss infos dict ws image i bs as texts hne h h4 hinf hd hl hi hsp hs hp hlen hm hone,
    C67_exact_partial S lum lss.flatten infos dict ws image i bs as texts h h4 hinf hd hl hi hsp hs hp hlen hm hone]

end

/-! ### Where it fails -/

/-- The block was shown as `a` and as `b`, twice each. -/
def mixed : Job := ⟨ppm blockGap, some (bytes "a ! b"), bytes "font"⟩

/-- Without `normalize_glyphs` the block is read as `b`, with it as `a`. -/
theorem C77_two_words :
    learnAndRead Frac insertionSort 128 [mixed, mixed] (ppm blockGap) none none = .ok ⟨[98, 33, 32, 98], 0, 3⟩ ∧
    learnNormalized Frac insertionSort 128 [[mixed], [mixed]] (ppm blockGap) none none = .ok ⟨[97, 33, 32, 97], 0, 3⟩ := by
  constructor <;> decide +kernel

theorem C77_false : ¬ C77_statement Frac insertionSort := by
  intro h
  have := h 128 [[mixed], [mixed]] _ none none _ _ C77_two_words.1 C77_two_words.2
  exact absurd this (by decide)

/-- The line of `C67` in two glyph files, read through all four programs. -/
example : learnNormalized Frac insertionSort 128 [[lesson.job], [lesson.job]] (ppm blockGap) none none =
    .ok ⟨[97, 33, 32, 97], 0, 3⟩ := by decide +kernel

/-- Lines with other words, in another order and in one file or two. -/
example : learnNormalized Frac insertionSort 128 [[mixed, mixed], [lesson.job]] (ppm blockGap) none none =
      learnNormalized Frac insertionSort 128 [[lesson.job, mixed, mixed]] (ppm blockGap) none none ∧
    learnNormalized Frac insertionSort 128 [[mixed, mixed], [lesson.job]] (ppm blockGap) none none =
      .ok ⟨[97, 33, 32, 97], 0, 3⟩ := by
  constructor <;> decide +kernel

/-- Without a file `normalize_glyphs` fails. -/
example : learnNormalized Frac insertionSort 128 [] (ppm blockGap) none none = .throw := by decide +kernel

end Ppocr.Props

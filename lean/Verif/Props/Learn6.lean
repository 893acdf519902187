import Verif.Proofs.Learn6
import Verif.Props.Line6

/-! # C95: learning, then reading with `extract_text6` -/

namespace Ppocr.Props
open Ppocr Spec

/-- `write_glyphs`, `write_datas` on its output, then `extract_text6` with the output of both. -/
def learnAndRead6 (S : StdSort) (lum : Nat) (jobs : List Job) (image : FileEnv) (dict : Option TextFile) : Res Answer6 := do
  let g := writeGlyphs lum jobs
  g.ended
  let r ← writeDatas (some g.out)
  if r.1 ≠ 0 then .throw else program6 S ⟨some g.out, some r.2, image, none, dict⟩

/-- Full statement of **C95**: a line that was learnt from is read back, if letters that look alike were shown with the same word. -/
def C95_statement : Prop :=
  ∀ (S : StdSort) (lum : Nat) (ls : List Lesson) (l : Lesson) (image : FileEnv) (texts : List (List Nat)), Course lum ls →
    (taught ls).length + 63 < W32 → (∀ p ∈ taught ls, ∀ q ∈ taught ls, Alike p.1 q.1 ∨ Exact6 p.1 q.1 → p.2 = q.2) → l ∈ ls →
    loadImage image 128 = .ok l.image → LineImage l.image → l.words = texts.map encAll → (∀ cs ∈ texts, ∀ c ∈ cs, Scalar c) →
    learnAndRead6 S lum (ls.map Lesson.job) image none =
      .ok ⟨spacedOut texts, spacedOut texts, encAll (gapped 0 l.boxes texts).flatten⟩

theorem course_imgs (ls : List Lesson) : (ls.flatMap Lesson.glyphs).map LGlyph.img = (taught ls).map Prod.fst ∧
    (ls.flatMap Lesson.glyphs).map glyphWords = (taught ls).map fun p => [p.2] := by
  unfold taught
  induction ls with
  | nil => exact ⟨rfl, rfl⟩
  | cons l ls ih =>
    simp only [List.flatMap_cons, List.map_append, ih.1, ih.2]
    unfold Lesson.glyphs
    rw [zipWith_glyphs]
    simp only [List.map_map]
    exact ⟨rfl, rfl⟩

/-- **C95**, what is printed after learning from lines: as in C90, for the letters that were shown and their words; every letter of
the line is looked for among them. -/
theorem C95_results (S S' : StdSort) (lum : Nat) (ls : List Lesson) (dict : Option TextFile) (ws : List (List Nat)) (image : FileEnv)
    (i : Image) (h : Course lum ls) (hn : (taught ls).length + 63 < W32) (hd : DictFile S' ws dict)
    (hl : loadImage image 128 = .ok i) (hi : LineImage i) :
    ∃ bs as, segment i = .ok bs ∧ Pictures i bs as ∧ as.length = bs.length ∧
      ((∃ (R : Image → Letter6) (cs : List (List (List Nat))),
        (∀ a ∈ as, Reads6 ((taught ls).map Prod.fst) ((taught ls).map fun p => [p.2]) a (R a)) ∧ GoodWords cs ∧
        cs.map (List.map encAll) = withGaps 0 bs (letterWords R [] as) ∧
        learnAndRead6 S lum (ls.map Lesson.job) image dict =
          .ok ⟨eachSpaced (fun a => (R a).r1) as, eachSpaced (fun a => (R a).r2) as, encAll (saying ws (cs.dropWhile isStop))⟩) ∨
      ((∃ a ∈ as, Jam6 ((taught ls).map Prod.fst) ((taught ls).map fun p => [p.2]) a) ∧
        learnAndRead6 S lum (ls.map Lesson.job) image dict = .ub)) := by
  obtain ⟨t, ht, e1, _⟩ := C65_lines lum ls fun l hl => ⟨h.holds l hl, h.count l hl⟩
  obtain ⟨E, hE, hdict⟩ := loadDict_ok hd
  obtain ⟨hi1, hi2⟩ := course_imgs ls
  have hg : ∀ g ∈ ls.flatMap Lesson.glyphs, g.Good := fun g hg => (h.readable g hg).toGood
  have hs := h.letter
  have hlen := h.few.1
  obtain ⟨d, hd1, _⟩ := learnt_loadAll ((ls.flatMap Lesson.glyphs).map LGlyph.img) (by
    intro a ha
    obtain ⟨g, hg, rfl⟩ := List.mem_map.1 ha
    exact hs g hg)
  have e2 : writeDatas (some t) = .ok (0, datasWrite d) := by
    unfold writeDatas IS.of
    simp only []
    rw [datasLoop_write _ t (t.length + 1) Datas.empty d hg ht (by
      obtain ⟨_, e, hl⟩ := glyphsWrite_total hg
      rw [ht] at e
      cases e
      omega) hd1]
    rfl
  have hrun : learnAndRead6 S lum (ls.map Lesson.job) image dict = program6 S ⟨some t, some (datasWrite d), image, none, dict⟩ := by
    unfold learnAndRead6
    rw [e1]
    simp only [Res.ok_bind, e2, ne_eq, not_true_eq_false, if_false]
  have := C90_program S S' ⟨some t, some (datasWrite d), image, none, dict⟩ (ls.flatMap Lesson.glyphs) d ws E t i hg
    (by
      intro g hg
      obtain ⟨w, f, _, e⟩ := glyphs_taught hg
      rw [e]; simp)
    hs
    (by
      intro g hgm w hw
      obtain ⟨w', f, hp, e⟩ := glyphs_taught hgm
      unfold glyphWords at hw
      rw [e] at hw
      have hw : w = w' := by simpa using hw
      subst hw
      obtain ⟨cs, hcs, e'⟩ := h.text _ hp
      refine ⟨cs, ?_, hcs, e'⟩
      rintro rfl
      exact ((h.readable g hgm).views ⟨w, f, 2 ^ 32 - 1⟩ (by rw [e]; simp)).1.1 e')
    (by rw [hlen]; exact hn) hd1 ht rfl rfl hE hdict hl hi
  rw [hi1, hi2, ← hrun] at this
  exact this

/-- The reading of a letter that stands for a text: nothing but the text. -/
theorem stands6_reads {ls : List Lesson} {a : Image} {cs : List Nat} {o : Letter6} (h : Stands6 ls a cs)
    (hr : Reads6 ((taught ls).map Prod.fst) ((taught ls).map fun p => [p.2]) a o) :
    o.r1 = encAll cs ∧ o.r2 = encAll cs ∧ o.cached = o.amb ∧ o.amb ≠ [] ∧ ∀ w ∈ o.amb, w = encAll cs := by
  obtain ⟨_, ⟨p, hp, he⟩, hall⟩ := h
  obtain ⟨k, hk⟩ := List.getElem?_of_mem hp
  have hm : Match6 ((taught ls).map Prod.fst) a k := ⟨p.1, by rw [List.getElem?_map, hk]; rfl, he⟩
  have hw : ∀ w ∈ o.amb, w = encAll cs := by
    intro w hw
    obtain ⟨g, v, hc, hv, hwv⟩ := (hr.words w).1 hw
    rcases hc with ⟨b, hb, hex⟩ | ⟨hno, _⟩
    · rw [List.getElem?_map] at hb hv
      obtain ⟨q, hq, rfl⟩ := Option.map_eq_some_iff.1 hb
      rw [hq, Option.map_some, Option.some.injEq] at hv
      subst hv
      rw [List.mem_singleton.1 hwv]
      exact hall q (List.mem_of_getElem? hq) hex
    · exact absurd hm (hno k)
  have hne : o.amb ≠ [] := by
    have : p.2 ∈ o.amb := (hr.words _).2 ⟨k, [p.2], .inl hm, by rw [List.getElem?_map, hk]; rfl, by simp⟩
    intro e
    rw [e] at this
    cases this
  obtain ⟨h1, h2⟩ := hr.read hne
  have e2 : o.r2 = encAll cs := hw _ (List.mem_of_mem_head? h2)
  exact ⟨(hr.same ⟨k, hm⟩).trans e2, e2, h1, hne, hw⟩

theorem eachSpaced_texts (f : Image → List Nat) : ∀ (as : List Image) (texts : List (List Nat)), texts.length = as.length →
    (∀ (k : Nat) a cs, as[k]? = some a → texts[k]? = some cs → f a = encAll cs) → eachSpaced f as = spacedOut texts
  | [], [], _, _ => rfl
  | [], _ :: _, h, _ => by cases h
  | _ :: _, [], h, _ => by cases h
  | a :: as, t :: ts, h, hm => by
    have ih := eachSpaced_texts f as ts (by simpa using h) fun k a cs ha hc => hm (k + 1) a cs ha hc
    unfold eachSpaced spacedOut at ih ⊢
    rw [List.flatMap_cons, List.flatMap_cons, ih, hm 0 a t rfl rfl]

/-- The candidates along a line of letters that stand for texts. -/
theorem sure_line {ls : List Lesson} {R : Image → Letter6} : ∀ (bs : List Box) (as : List Image) (texts : List (List Nat))
    (x : Nat) (seen : List Image) (cs : List (List (List Nat))), texts.length = as.length →
    (∀ a ∈ as, Reads6 ((taught ls).map Prod.fst) ((taught ls).map fun p => [p.2]) a (R a)) →
    (∀ (k : Nat) a cs, as[k]? = some a → texts[k]? = some cs → Stands6 ls a cs) → GoodWords cs →
    cs.map (List.map encAll) = withGaps x bs (letterWords R seen as) →
    (∀ l ∈ cs, Sure l) ∧ cs.map firstOf = gapped x bs texts
  | [], as, ts, x, seen, cs, _, _, _, _, hc => by
    have : cs = [] := by simpa [withGaps] using hc
    subst this
    exact ⟨by simp, rfl⟩
  | _ :: _, [], [], x, seen, cs, _, _, _, _, hc => by
    have : cs = [] := by simpa [withGaps, letterWords] using hc
    subst this
    exact ⟨by simp, rfl⟩
  | _ :: _, [], _ :: _, _, _, _, h, _, _, _, _ => by cases h
  | _ :: _, _ :: _, [], _, _, _, h, _, _, _, _ => by cases h
  | b :: bs, a :: as, t :: ts, x, seen, cs, h, hR, hm, hg, hc => by
    have key : ∀ cs : List (List (List Nat)), GoodWords cs →
        cs.map (List.map encAll) = (if a ∈ seen then (R a).cached else (R a).amb) :: withGaps (b.x + b.w) bs (letterWords R (a :: seen) as) →
        (∀ l ∈ cs, Sure l) ∧ cs.map firstOf = t :: gapped (b.x + b.w) bs ts := by
      intro cs hg hc
      cases cs with
      | nil => cases hc
      | cons l cs =>
        rw [List.map_cons, List.cons.injEq] at hc
        obtain ⟨h1, h2⟩ := sure_line bs as ts _ (a :: seen) cs (by simpa using h) (fun a ha => hR a (by simp [ha]))
          (fun k a cs ha hc => hm (k + 1) a cs ha hc) (fun x hx => hg x (by simp [hx])) hc.2
        have hst := hm 0 a t rfl rfl
        obtain ⟨_, _, e, hne, hall⟩ := stands6_reads hst (hR a (by simp))
        rw [e, ite_self] at hc
        have hw : ∀ w ∈ l, w = t := by
          intro w hw
          refine encAll_inj (hg l (by simp) w hw).2 hst.1 (hall _ ?_)
          rw [← hc.1]
          exact List.mem_map_of_mem hw
        have hl : l ≠ [] := by
          rintro rfl
          exact hne hc.1.symm
        have hf : firstOf l = t := by
          cases l with
          | nil => exact absurd rfl hl
          | cons w l => exact hw w (by simp)
        refine ⟨?_, by rw [List.map_cons, hf, h2]⟩
        intro y hy
        rcases List.mem_cons.1 hy with rfl | hy
        · exact ⟨hl, fun w hw' => by rw [hf]; exact hw w hw'⟩
        · exact h1 y hy
    rw [letterWords, withGaps] at hc
    rw [gapped]
    split at hc
    · rename_i hx
      rw [if_pos hx]
      cases cs with
      | nil => cases hc
      | cons l cs =>
        rw [List.map_cons, List.singleton_append, List.cons.injEq] at hc
        obtain ⟨h1, h2⟩ := key cs (fun x hx => hg x (by simp [hx])) hc.2
        have hl : l = [[32]] := by
          have hgl := hg l (by simp)
          have h0 := hc.1
          cases l with
          | nil => cases h0
          | cons w l =>
            rw [List.map_cons, List.cons.injEq, List.map_eq_nil_iff] at h0
            rw [h0.2, encAll_inj (b := [32]) (hgl w (by simp)).2 (fun c hc => by rw [List.mem_singleton.1 hc]; decide) h0.1]
        subst hl
        refine ⟨?_, by rw [List.map_cons, h2]; rfl⟩
        intro y hy
        rcases List.mem_cons.1 hy with rfl | hy
        · exact ⟨by simp, fun w hw => List.mem_singleton.1 hw⟩
        · exact h1 y hy
    · rename_i hx
      rw [if_neg hx]
      exact key cs hg hc

theorem dropWhile_stops : ∀ {L : List (List (List Nat))}, (∀ l ∈ L, Sure l) →
    (L.dropWhile isStop).map firstOf = (L.map firstOf).dropWhile stopText
  | [], _ => rfl
  | l :: L, h => by
    have e := isStop_first (h l (by simp)).1
    rw [List.map_cons]
    cases hs : isStop l with
    | true =>
      rw [List.dropWhile_cons_of_pos hs, List.dropWhile_cons_of_pos (by rw [← e, hs]), dropWhile_stops fun x hx => h x (by simp [hx])]
    | false =>
      rw [List.dropWhile_cons_of_neg (by simp [hs]), List.dropWhile_cons_of_neg (by simp [← e, hs])]
      rfl

/-- **C95**, what is printed for a line whose letters match letters that were shown, each with one word only: this word and a space
for each of them, twice; then the texts with a space where the picture has one, without the separators at the start. -/
theorem C95_exact_partial (S S' : StdSort) (lum : Nat) (ls : List Lesson) (dict : Option TextFile) (ws : List (List Nat)) (image : FileEnv)
    (i : Image) (bs : List Box) (as : List Image) (texts : List (List Nat)) (h : Course lum ls) (hn : (taught ls).length + 63 < W32)
    (hd : DictFile S' ws dict) (hl : loadImage image 128 = .ok i) (hi : LineImage i) (hs : segment i = .ok bs) (hp : Pictures i bs as)
    (hlen : texts.length = as.length)
    (hm : ∀ (k : Nat) a cs, as[k]? = some a → texts[k]? = some cs → Stands6 ls a cs) (hone : Uncut ws (gapped 0 bs texts)) :
    learnAndRead6 S lum (ls.map Lesson.job) image dict =
      .ok ⟨spacedOut texts, spacedOut texts, encAll ((gapped 0 bs texts).dropWhile stopText).flatten⟩ := by
  obtain ⟨bs', as', hs', hp', hal, hres⟩ := C95_results S S' lum ls dict ws image i h hn hd hl hi
  rw [hs, Res.ok.injEq] at hs'
  subst hs'
  have := pictures_unique hp hp'
  subst this
  have hstand : ∀ a ∈ as, ∃ cs, Stands6 ls a cs := by
    intro a ha
    obtain ⟨k, hk⟩ := List.getElem?_of_mem ha
    have hlt := (List.getElem?_eq_some_iff.1 hk).1
    exact ⟨_, hm k a _ hk (List.getElem?_eq_getElem (by omega))⟩
  rcases hres with ⟨R, cs, hR, hg, hc, e⟩ | ⟨⟨a, ha, hj⟩, _⟩
  · rw [e, eachSpaced_texts _ as texts hlen, eachSpaced_texts _ as texts hlen]
    · obtain ⟨h1, h2⟩ := sure_line bs as texts 0 [] cs hlen hR hm hg hc
      have hdrop : (gapped 0 bs texts).dropWhile stopText <:+: gapped 0 bs texts := (List.dropWhile_suffix _).isInfix
      have e3 := dropWhile_stops h1
      rw [h2] at e3
      rw [saying_sure _ _ (Nat.le_refl _) (fun l hl => h1 l ((List.dropWhile_suffix _).subset hl)) (by
        rw [e3]; exact Uncut.sub hone hdrop), List.flatMap_def, e3]
    · intro k a cs ha hc
      exact (stands6_reads (hm k a cs ha hc) (hR a (List.mem_of_getElem? ha))).2.1
    · intro k a cs ha hc
      exact (stands6_reads (hm k a cs ha hc) (hR a (List.mem_of_getElem? ha))).1
  · exfalso
    obtain ⟨cs, _, ⟨p, hp, he⟩, _⟩ := hstand a ha
    obtain ⟨k, hk⟩ := List.getElem?_of_mem hp
    exact hj.1 k ⟨p.1, by rw [List.getElem?_map, hk]; rfl, he⟩

/-- **C95** for a line whose letters match themselves (C86) and that does not start with a separator; missing: the other lines
(`C95_lost`, `C95_mark`). -/
theorem C95_own_line_partial (S : StdSort) (lum : Nat) (ls : List Lesson) (l : Lesson) (image : FileEnv)
    (texts : List (List Nat)) (h : Course lum ls) (hn : (taught ls).length + 63 < W32)
    (hsame : ∀ p ∈ taught ls, ∀ q ∈ taught ls, Exact6 p.1 q.1 → p.2 = q.2) (hl : l ∈ ls)
    (hload : loadImage image 128 = .ok l.image) (hi : LineImage l.image) (htexts : l.words = texts.map encAll)
    (hsc : ∀ cs ∈ texts, ∀ c ∈ cs, Scalar c) (hself : ∀ a ∈ l.pics, Exact6 a a)
    (hfirst : ∀ t, (gapped 0 l.boxes texts).head? = some t → stopText t = false) :
    learnAndRead6 S lum (ls.map Lesson.job) image none =
      .ok ⟨spacedOut texts, spacedOut texts, encAll (gapped 0 l.boxes texts).flatten⟩ := by
  have hH := h.holds l hl
  obtain ⟨_, hpl, _⟩ := line_pics hH
  have hc := h.count l hl
  have hlen : texts.length = l.pics.length := by
    have := congrArg List.length htexts
    rw [List.length_map] at this
    omega
  rw [C95_exact_partial S S lum ls none [] image l.image l.boxes l.pics texts h hn rfl hload hi hH.seg hH.pics hlen ?_ (uncut_nil _)]
  · congr 4
    cases hg : gapped 0 l.boxes texts with
    | nil => rfl
    | cons t ts => rw [List.dropWhile_cons_of_neg (by rw [hfirst t (by rw [hg]; rfl)]; simp)]
  · intro k a cs ha hcs
    have hw : l.words[k]? = some (encAll cs) := by rw [htexts, List.getElem?_map, hcs]; rfl
    have hm : (a, encAll cs) ∈ taught ls := by
      refine List.mem_flatMap.2 ⟨l, hl, List.mem_of_getElem? (i := k) ?_⟩
      rw [List.getElem?_zip_eq_some]
      exact ⟨ha, hw⟩
    exact ⟨hsc cs (List.mem_of_getElem? hcs), ⟨_, hm, hself a (List.mem_of_getElem? ha)⟩, fun p hp hal => hsame p hp _ hm hal⟩

/-! ### Where it fails -/

/-- A line that is only a column. -/
def stickLine : Image := ⟨⟨2, 3⟩, [120, 45, 120, 45, 120, 45]⟩

/-- It is shown as `l`. -/
def stickLesson : Lesson := ⟨⟨ppm stickLine, some (bytes "l"), bytes "font"⟩, stickLine, [⟨0, 0, 1, 3⟩], [stick], [[108]]⟩

theorem stickLesson_holds : stickLesson.Holds 128 :=
  ⟨⟨_, rfl, by
    rw [show bytes "l" = [108] by decide +kernel]
    exact .more _ _ [] _ ⟨[], rfl, by simp, by simp, by simp [Blank], by simp⟩ (.stop _ (by simp))⟩,
    by decide +kernel, by decide, by decide +kernel, ⟨by decide, trivial⟩⟩

theorem stickLesson_course : Course 128 [stickLesson] := by
  have hl : ∀ l ∈ [stickLesson], l = stickLesson := fun l h => List.mem_singleton.1 h
  have ht : taught [stickLesson] = [(stick, [108])] := rfl
  refine ⟨?_, ?_, ?_, ?_, ?_, by rw [ht]; decide⟩
  · intro l h; rw [hl l h]; exact stickLesson_holds
  · intro l h; rw [hl l h]; rfl
  · intro l h; rw [hl l h]; decide
  · intro l h; rw [hl l h]; exact ⟨by decide +kernel, by decide +kernel⟩
  · intro p hp
    rw [ht, List.mem_singleton] at hp
    subst hp
    exact ⟨[108], by simp [Scalar], rfl⟩

theorem stickLine_line : LineImage stickLine := by
  refine ⟨⟨rfl, by decide, by decide, by decide⟩, by decide, by decide, by decide, .inl (by decide), ?_⟩
  intro bs h
  rw [show segment stickLine = .ok [⟨0, 0, 1, 3⟩] by decide +kernel] at h
  cases h
  decide

/-- The column that was shown as `l` is not recognised on the same line, and nothing is printed as the text. -/
theorem C95_lost : learnAndRead6 insertionSort 128 [stickLesson.job] (ppm stickLine) none =
    .ok ⟨bytes "_ ", bytes "_ ", []⟩ := by decide +kernel

/-- **C95** is false. -/
theorem C95_wrong : ¬ C95_statement := by
  intro h
  have := h insertionSort 128 [stickLesson] stickLesson (ppm stickLine) [[108]] stickLesson_course (by decide)
    (by
      intro p hp q hq _
      have ht : taught [stickLesson] = [(stick, [108])] := rfl
      rw [ht, List.mem_singleton] at hp hq
      rw [hp, hq])
    (by simp) (by decide +kernel) stickLine_line rfl (by simp [Scalar])
  rw [show [stickLesson].map Lesson.job = [stickLesson.job] from rfl, C95_lost] at this
  exact absurd this (by decide +kernel)

/-- Two blocks, then behind a space two smaller ones. -/
def blockLine : Image := ⟨⟨18, 3⟩,
  [120, 120, 120, 45, 120, 120, 120, 45, 45, 45, 45, 45, 120, 120, 45, 120, 120, 45,
   120, 120, 120, 45, 120, 120, 120, 45, 45, 45, 45, 45, 120, 120, 45, 120, 120, 45,
   120, 120, 120, 45, 120, 120, 120, 45, 45, 45, 45, 45, 45, 45, 45, 45, 45, 45]⟩

/-- The separator at the start of the line is lost in the text. -/
theorem C95_mark : learnAndRead6 insertionSort 128 [⟨ppm blockLine, some (bytes "! ! é é"), bytes "font"⟩] (ppm blockLine) none =
    .ok ⟨bytes "! ! é é ", bytes "! ! é é ", bytes "éé"⟩ := by decide +kernel

/-- Learnt with the separators at its end the line is read back, and with a dictionary as well. -/
example : learnAndRead6 insertionSort 128 [⟨ppm blockLine, some (bytes "é é ! !"), bytes "font"⟩] (ppm blockLine) none =
      .ok ⟨bytes "é é ! ! ", bytes "é é ! ! ", bytes "éé !!"⟩ ∧
    learnAndRead6 insertionSort 128 [⟨ppm blockLine, some (bytes "é é a a"), bytes "font"⟩] (ppm blockLine) (some (some (bytes "97 1 0 1\n"))) =
      .ok ⟨bytes "é é a a ", bytes "é é a a ", bytes "éé aa"⟩ := by decide +kernel

end Ppocr.Props

import Verif.Props.Pipeline
import Verif.Spec.Learning

/-! # The script `learning` (C97) -/

namespace Ppocr.Props
open Ppocr Spec

/-- The lines to learn from: as many words as letters, letters of a reasonable size, and fewer than 2^32 of them. -/
structure Prepared (ls : List Lesson) : Prop where
  holds : ∀ l ∈ ls, l.Holds 100
  count : ∀ l ∈ ls, l.words.length = l.boxes.length
  letters : ∀ l ∈ ls, ∀ a ∈ l.pics, Sized a
  font : ∀ l ∈ ls, Token l.job.font
  few : (ls.flatMap Lesson.pics).length < 2 ^ 32

theorem Prepared.good {ls : List Lesson} (h : Prepared ls) : ∀ g ∈ ls.flatMap Lesson.glyphs, g.Good := by
  intro g hg
  obtain ⟨l, hl, hg⟩ := List.mem_flatMap.1 hg
  exact (line_readable (h.holds l hl) (h.font l hl) g hg).toGood

theorem lessons_glyph (ls : List Lesson) (a : Image) (v : LView) :
    (∃ g ∈ ls.flatMap Lesson.glyphs, g.img = a ∧ v ∈ g.views) ↔
      ∃ l ∈ ls, (a, v.word) ∈ l.pics.zip l.words ∧ v.font = l.job.font ∧ v.info = 2 ^ 32 - 1 := by
  constructor
  · rintro ⟨g, hg, rfl, hv⟩
    obtain ⟨l, hl, hg⟩ := List.mem_flatMap.1 hg
    unfold Lesson.glyphs at hg
    rw [zipWith_glyphs] at hg
    obtain ⟨p, hp, rfl⟩ := List.mem_map.1 hg
    rw [List.mem_singleton] at hv
    subst hv
    exact ⟨l, hl, hp, rfl, rfl⟩
  · rintro ⟨l, hl, hp, h1, h2⟩
    refine ⟨⟨a, [v]⟩, List.mem_flatMap.2 ⟨l, hl, ?_⟩, rfl, List.mem_singleton.2 rfl⟩
    unfold Lesson.glyphs
    rw [zipWith_glyphs]
    refine List.mem_map.2 ⟨_, hp, ?_⟩
    rw [← h1, ← h2]

theorem Prepared.image {ls : List Lesson} (h : Prepared ls) (a : Image) :
    (∃ g ∈ ls.flatMap Lesson.glyphs, g.img = a) ↔ ∃ l ∈ ls, a ∈ l.pics := by
  constructor
  · rintro ⟨g, hg, rfl⟩
    obtain ⟨l, hl, hg⟩ := List.mem_flatMap.1 hg
    obtain ⟨b, hb, _, _, rfl⟩ := lineGlyphs_mem hg
    exact ⟨l, hl, hb⟩
  · rintro ⟨l, hl, ha⟩
    obtain ⟨_, hpl, _⟩ := line_pics (h.holds l hl)
    have hc := h.count l hl
    obtain ⟨k, hk, e⟩ := List.mem_iff_getElem.1 ha
    obtain ⟨g, hg, e2, _⟩ := (lessons_glyph ls a ⟨l.words[k]'(by omega), l.job.font, 2 ^ 32 - 1⟩).2 ⟨l, hl, by
      rw [← e]
      exact List.mem_iff_getElem.2 ⟨k, by rw [List.length_zip]; omega, by simp⟩, rfl, rfl⟩
    exact ⟨g, hg, e2⟩

theorem Prepared.total {ls : List Lesson} (h : Prepared ls) : viewCount (ls.flatMap Lesson.glyphs) ≤ maxU := by
  have key : ∀ ls : List Lesson, viewCount (ls.flatMap Lesson.glyphs) ≤ (ls.flatMap Lesson.pics).length := by
    intro ls
    induction ls with
    | nil => simp [viewCount]
    | cons l ls ih =>
      unfold viewCount at ih ⊢
      rw [List.flatMap_cons, List.flatMap_append, List.length_append, List.flatMap_cons, List.length_append]
      have : (l.glyphs.flatMap LGlyph.views).length ≤ l.pics.length := by
        unfold Lesson.glyphs
        rw [zipWith_glyphs, List.flatMap_map, List.length_flatMap]
        simp only [List.length_singleton]
        rw [List.map_const', List.sum_replicate_nat, List.length_zip]
        omega
      omega
  have h1 := key ls
  have h2 := h.few
  have h3 : maxU = 2 ^ 32 - 1 := rfl
  omega

theorem run_ran (D : Disk) (r : Run) :
    writeGlyphsMain D r.args = (writeGlyphs 100 [⟨D.image r.picture, D.text r.text, r.font⟩]).ran := by
  have e : strtoul [49, 48, 48] = ⟨100, [], false⟩ := by decide
  unfold writeGlyphsMain Run.args lumOption
  dsimp only
  rw [e, if_pos rfl, if_neg (by simp)]
  dsimp only
  rw [if_neg (by simp)]
  rfl

theorem learnRuns_ok (D : Disk) : ∀ (rs : List Run) (ls : List Lesson), Over D rs ls → (∀ l ∈ ls, l.Holds 100) →
    (∀ l ∈ ls, l.words.length = l.boxes.length) →
    ∃ t, glyphsWrite (ls.flatMap Lesson.glyphs) = .ok t ∧ learnRuns D rs = ⟨t, .ok 0⟩
  | [], [], _, _, _ => ⟨[], rfl, rfl⟩
  | [], _ :: _, h, _, _ => by simp [Over] at h
  | _ :: _, [], h, _, _ => by simp [Over] at h
  | r :: rs, l :: ls, h, h1, h2 => by
    unfold Over at h
    rw [List.map_cons, List.map_cons, List.cons.injEq] at h
    obtain ⟨t, ht, e⟩ := learnRuns_ok D rs ls h.2 (fun l hl => h1 l (by simp [hl])) fun l hl => h2 l (by simp [hl])
    obtain ⟨u, hu, e', _⟩ := C65_lines 100 [l] fun m hm => by
      rw [List.mem_singleton] at hm
      subst hm
      exact ⟨h1 _ (by simp), h2 _ (by simp)⟩
    refine ⟨u ++ t, ?_, ?_⟩
    · rw [List.flatMap_cons]
      rw [List.flatMap_cons, List.flatMap_nil, List.append_nil] at hu
      exact glyphsWrite_append hu ht
    · unfold learnRuns
      rw [run_ran, h.1]
      rw [List.map_cons, List.map_nil] at e'
      rw [e', e]
      rfl

/-- The normalised glyphs of these lines as a text. -/
def Normal (S : StdSort) (ls : List Lesson) (t : List Nat) : Prop :=
  ∃ out, normalizeGlyphs S (ls.flatMap Lesson.glyphs) = .ok out ∧ glyphsWrite out = .ok t

/-- `normalize_glyphs` and `write_datas` behind each other. -/
theorem normalized_holding (S : StdSort) (groups : List (List Lesson)) (texts : List (List Nat)) (hne : texts ≠ [])
    (h : Prepared groups.flatten) (ht : (groups.map fun ls => glyphsWrite (ls.flatMap Lesson.glyphs)) = texts.map Res.ok) :
    ∃ t d, normalizeMain S (texts.map some) = .ok (0, t) ∧ writeDatas (some t) = .ok (0, d) ∧
      Holding groups.flatten (some t) (some d) ∧ Normal S groups.flatten t := by
  have efl := flatten_glyphs groups
  obtain ⟨out, eo, hm, hv⟩ := normalizeGlyphs_ok S _ fun g hg => (h.good g hg).img.full
  have hgo := merged_good hm h.good fun g hg => Nat.le_trans (hv g hg) h.total
  have himg : ∀ a, a ∈ out.map LGlyph.img ↔ ∃ l ∈ groups.flatten, a ∈ l.pics := by
    intro a
    rw [List.mem_map, hm.images, h.image]
  have hs : ∀ g ∈ out, Sized g.img := by
    intro g hg
    obtain ⟨l, hl, ha⟩ := (himg g.img).1 (List.mem_map.2 ⟨g, hg, rfl⟩)
    exact h.letters l hl _ ha
  have hn : out.length < 2 ^ 64 := by
    have h1 := normalizeGlyphs_weigh S (fun _ => 1) (fun g hg => (h.good g hg).img.full) eo
    have h2 : ∀ gs : List LGlyph, weigh (fun _ => 1) gs = viewCount gs := by
      intro gs
      unfold weigh allViews viewCount
      rw [List.map_const', List.sum_replicate_nat, Nat.mul_one]
    rw [h2, h2] at h1
    have h3 := h.total
    have h4 : ∀ gs : List LGlyph, (∀ g ∈ gs, 0 < g.views.length) → gs.length ≤ viewCount gs := by
      intro gs
      induction gs with
      | nil => simp
      | cons g gs ih =>
        intro hg
        have := ih fun g' hg' => hg g' (by simp [hg'])
        have := hg g (by simp)
        unfold viewCount at *
        rw [List.flatMap_cons, List.length_append, List.length_cons]
        omega
    have h5 := h4 out fun g hg => by
      obtain ⟨g', hg', e⟩ := (hm.images g.img).1 ⟨g, hg, rfl⟩
      obtain ⟨l, hl, hg2⟩ := List.mem_flatMap.1 hg'
      obtain ⟨a, _, w, _, rfl⟩ := lineGlyphs_mem hg2
      exact List.length_pos_iff.2 (List.ne_nil_of_mem ((hm.views g hg _).2 ⟨_, hg', e, List.mem_singleton.2 rfl⟩))
    have h6 : maxU = 2 ^ 32 - 1 := rfl
    omega
  obtain ⟨t, d, et, hL, ed, _⟩ := C66_features out hgo hs hn
  refine ⟨t, datasWrite d, ?_, ed, ⟨out, t, d, rfl, et, rfl, hL, List.pairwise_map.2 hm.order, himg, ?_⟩, out, eo, et⟩
  · have hr := readGlyphFiles_write (groups.map fun ls => ls.flatMap Lesson.glyphs) texts [] (by
      intro gs hgs g hg
      refine h.good g ?_
      rw [← efl]
      exact List.mem_flatten.2 ⟨gs, hgs, hg⟩) (by rw [List.map_map]; exact ht)
    unfold normalizeMain
    rw [if_neg (by simpa using hne), hr, Res.ok_bind]
    simp only [List.nil_append]
    rw [efl, eo, Res.ok_bind, et]
    rfl
  · intro g hg v
    rw [hm.views g hg v]
    exact lessons_glyph _ g.img v

theorem Prepared.part {ls lc : List Lesson} (h : Prepared (ls ++ lc)) : Prepared ls ∧ Prepared lc := by
  have hf := h.few
  rw [List.flatMap_append, List.length_append] at hf
  constructor <;> refine ⟨fun l hl => h.holds l (by simp [hl]), fun l hl => h.count l (by simp [hl]),
    fun l hl => h.letters l (by simp [hl]), fun l hl => h.font l (by simp [hl]), by omega⟩

theorem ranOf_ok (c : Nat) (t : List Nat) : ranOf (.ok (c, t)) = ⟨t, .ok c⟩ := rfl

/-- What the script leaves. -/
def left (g1 g2 g3 d1 d2 d3 : List Nat) : Store
  | .glyphsLatin => none
  | .glyphsCyrillic => none
  | .normLatin => some g1
  | .normCyrillic => some g2
  | .normBoth => some g3
  | .datasLatin => some d1
  | .datasCyrillic => some d2
  | .datasBoth => some d3

theorem script_eq (S : StdSort) (D : Disk) (latin cyrillic : List Run) (s : Store) {t1 t2 g1 g2 g3 d1 d2 d3 : List Nat}
    (r1 : learnRuns D latin = ⟨t1, .ok 0⟩) (r2 : learnRuns D cyrillic = ⟨t2, .ok 0⟩)
    (n1 : normalizeMain S [some t1] = .ok (0, g1)) (n2 : normalizeMain S [some t2] = .ok (0, g2))
    (n3 : normalizeMain S [some t1, some t2] = .ok (0, g3)) (w1 : writeDatas (some g1) = .ok (0, d1))
    (w2 : writeDatas (some g2) = .ok (0, d2)) (w3 : writeDatas (some g3) = .ok (0, d3)) :
    learningScript S D latin cyrillic s = (left g1 g2 g3 d1 d2 d3, .ok 0) := by
  unfold learningScript andThen
  simp only [r1, r2, Store.put, reduceCtorEq, if_true, if_false, n1, n2, n3, ranOf_ok, w1, w2, w3]
  refine Prod.ext (funext fun f => ?_) rfl
  cases f <;> rfl

/-- The commands of the script on such lines. -/
theorem script_runs (S : StdSort) (D : Disk) (latin cyrillic : List Run) (ls lc : List Lesson) (s : Store)
    (h1 : Over D latin ls) (h2 : Over D cyrillic lc) (h : Prepared (ls ++ lc)) :
    ∃ t1 t2 g1 g2 g3 d1 d2 d3, glyphsWrite (ls.flatMap Lesson.glyphs) = .ok t1 ∧
      glyphsWrite (lc.flatMap Lesson.glyphs) = .ok t2 ∧
      (normalizeMain S [some t1] = .ok (0, g1) ∧ normalizeMain S [some t2] = .ok (0, g2) ∧
        normalizeMain S [some t1, some t2] = .ok (0, g3)) ∧
      (writeDatas (some g1) = .ok (0, d1) ∧ writeDatas (some g2) = .ok (0, d2) ∧ writeDatas (some g3) = .ok (0, d3)) ∧
      (Holding ls (some g1) (some d1) ∧ Holding lc (some g2) (some d2) ∧ Holding (ls ++ lc) (some g3) (some d3)) ∧
      (Normal S ls g1 ∧ Normal S lc g2 ∧ Normal S (ls ++ lc) g3) ∧
      learningScript S D latin cyrillic s = (left g1 g2 g3 d1 d2 d3, .ok 0) := by
  obtain ⟨p1, p2⟩ := h.part
  obtain ⟨t1, e1, r1⟩ := learnRuns_ok D latin ls h1 p1.holds p1.count
  obtain ⟨t2, e2, r2⟩ := learnRuns_ok D cyrillic lc h2 p2.holds p2.count
  obtain ⟨g1, d1, n1, w1, k1, m1⟩ := normalized_holding S [ls] [t1] (by simp) (by simpa using p1) (by simp [e1])
  obtain ⟨g2, d2, n2, w2, k2, m2⟩ := normalized_holding S [lc] [t2] (by simp) (by simpa using p2) (by simp [e2])
  obtain ⟨g3, d3, n3, w3, k3, m3⟩ := normalized_holding S [ls, lc] [t1, t2] (by simp) (by simpa using h) (by simp [e1, e2])
  simp only [List.map_cons, List.map_nil] at n1 n2 n3
  simp only [List.flatten_cons, List.flatten_nil, List.append_nil] at k1 k2 k3 m1 m2 m3
  exact ⟨t1, t2, g1, g2, g3, d1, d2, d3, e1, e2, ⟨n1, n2, n3⟩, ⟨w1, w2, w3⟩, ⟨k1, k2, k3⟩, ⟨m1, m2, m3⟩,
    script_eq S D latin cyrillic s r1 r2 n1 n2 n3 w1 w2 w3⟩

/-- **C97**: the script ends with 0 and leaves, for the Latin lines, for the Cyrillic ones and for both, a glyph file and a
file of features that hold what the lines taught; the glyph files that are not normalised are removed. -/
theorem C97_script (S : StdSort) (D : Disk) (latin cyrillic : List Run) (ls lc : List Lesson) (s : Store)
    (h1 : Over D latin ls) (h2 : Over D cyrillic lc) (h : Prepared (ls ++ lc)) :
    ∃ st, learningScript S D latin cyrillic s = (st, .ok 0) ∧ Holding ls (st .normLatin) (st .datasLatin) ∧
      Holding lc (st .normCyrillic) (st .datasCyrillic) ∧ Holding (ls ++ lc) (st .normBoth) (st .datasBoth) ∧
      st .glyphsLatin = none ∧ st .glyphsCyrillic = none := by
  obtain ⟨t1, t2, g1, g2, g3, d1, d2, d3, _, _, _, _, ⟨k1, k2, k3⟩, _, e⟩ := script_runs S D latin cyrillic ls lc s h1 h2 h
  exact ⟨_, e, k1, k2, k3, rfl, rfl⟩

theorem andThen_ok {s : Store} {f : OutFile} {r : Ran} {k : Store → Store × Res Nat} (h : r.code = .ok 0) :
    andThen s f r k = k (s.put f (some r.out)) := by
  unfold andThen
  rw [h]
  rfl

theorem andThen_fail {s : Store} {f : OutFile} {r : Ran} {k : Store → Store × Res Nat} (h : r.code ≠ .ok 0) :
    andThen s f r k = (s.put f (some r.out), r.code) := by
  unfold andThen
  split
  · next e => exact absurd e h
  · rfl

theorem learnRuns_code (D : Disk) : ∀ rs : List Run,
    (learnRuns D rs).code = .ok 0 ↔ ∀ r ∈ rs, (writeGlyphsMain D r.args).code = .ok 0
  | [] => by simp [learnRuns]
  | r :: rs => by
    unfold learnRuns
    dsimp only
    split
    · next h =>
      rw [learnRuns_code D rs]
      simp [h]
    · next h =>
      constructor
      · intro e
        exact absurd e h
      · intro e
        exact absurd (e r (by simp)) h

/-- **C97**, the claim about failures: a run of the script that fails leaves the normalised glyph files and the files of
features as they were. -/
def C97_statement (S : StdSort) : Prop :=
  ∀ (D : Disk) (latin cyrillic : List Run) (s : Store), (learningScript S D latin cyrillic s).2 ≠ .ok 0 →
    ∀ f, f ≠ .glyphsLatin → f ≠ .glyphsCyrillic → (learningScript S D latin cyrillic s).1 f = s f

/-- **C97**, partial: when `write_glyphs` fails on one of the lines, the script fails too, and the normalised glyph files and
the files of features are what they were. Nothing is assumed about the lines. Missing: when a later command fails, the file it
writes has been emptied (`C97_emptied`). -/
theorem C97_failed_partial (S : StdSort) (D : Disk) (latin cyrillic : List Run) (s : Store)
    (h : ∃ r ∈ latin ++ cyrillic, (writeGlyphsMain D r.args).code ≠ .ok 0) :
    (learningScript S D latin cyrillic s).2 ≠ .ok 0 ∧
      ∀ f, f ≠ .glyphsLatin → f ≠ .glyphsCyrillic → (learningScript S D latin cyrillic s).1 f = s f := by
  obtain ⟨r, hr, hc⟩ := h
  by_cases h1 : (learnRuns D latin).code = .ok 0
  · have h2 : (learnRuns D cyrillic).code ≠ .ok 0 := by
      intro h2
      rcases List.mem_append.1 hr with hr | hr
      · exact hc ((learnRuns_code D latin).1 h1 r hr)
      · exact hc ((learnRuns_code D cyrillic).1 h2 r hr)
    unfold learningScript
    rw [andThen_ok h1, andThen_fail h2]
    refine ⟨h2, fun f a b => ?_⟩
    simp only [Store.put]
    rw [if_neg b, if_neg a]
  · unfold learningScript
    rw [andThen_fail h1]
    refine ⟨h1, fun f a b => ?_⟩
    simp only [Store.put]
    rw [if_neg a]

theorem over_perm {D : Disk} {rs rs' : List Run} (hp : rs.Perm rs') : ∀ {ls : List Lesson}, Over D rs ls →
    ∃ ls', ls.Perm ls' ∧ Over D rs' ls' := by
  induction hp with
  | nil =>
    intro ls h
    exact ⟨ls, .refl _, h⟩
  | cons x _ ih =>
    intro ls h
    cases ls with
    | nil => simp [Over] at h
    | cons l ls =>
      unfold Over at h
      rw [List.map_cons, List.map_cons, List.cons.injEq] at h
      obtain ⟨ls', h1, h2⟩ := ih h.2
      refine ⟨l :: ls', h1.cons l, ?_⟩
      unfold Over at h2 ⊢
      rw [List.map_cons, List.map_cons, h.1, h2]
  | swap x y l =>
    intro ls h
    rcases ls with _ | ⟨a, _ | ⟨b, ls⟩⟩
    · simp [Over] at h
    · simp [Over] at h
    · unfold Over at h
      simp only [List.map_cons, List.cons.injEq] at h
      refine ⟨b :: a :: ls, List.Perm.swap _ _ _, ?_⟩
      unfold Over
      simp only [List.map_cons, List.cons.injEq]
      exact ⟨h.2.1, h.1, h.2.2⟩
  | trans _ _ ih1 ih2 =>
    intro ls h
    obtain ⟨l1, p1, o1⟩ := ih1 h
    obtain ⟨l2, p2, o2⟩ := ih2 o1
    exact ⟨l2, p1.trans p2, o2⟩

theorem Prepared.perm {ls ls' : List Lesson} (h : Prepared ls) (hp : ls.Perm ls') : Prepared ls' := by
  refine ⟨fun l hl => h.holds l (hp.mem_iff.2 hl), fun l hl => h.count l (hp.mem_iff.2 hl),
    fun l hl => h.letters l (hp.mem_iff.2 hl), fun l hl => h.font l (hp.mem_iff.2 hl), ?_⟩
  rw [← (hp.flatMap_right _).length_eq]
  exact h.few

theorem normal_perm {S S' : StdSort} {ls ls' : List Lesson} {t t' : List Nat} (h : Prepared ls) (hp : ls.Perm ls')
    (h1 : Normal S ls t) (h2 : Normal S' ls' t') : t = t' := by
  obtain ⟨o, e1, e2⟩ := h1
  obtain ⟨o', e3, e4⟩ := h2
  rw [normalizeGlyphs_perm S S' (hp.flatMap_right _) fun g hg => (h.good g hg).img.full, e3, Res.ok.injEq] at e1
  subst e1
  rw [e2, Res.ok.injEq] at e4
  exact e4

/-- **C97**, the order: the files that are left do not depend on the order in which the shell lists the fonts and pictures, nor
on `std::sort`, nor on what was there before. -/
theorem C97_order (S S' : StdSort) (D : Disk) (latin latin' cyrillic cyrillic' : List Run) (ls lc : List Lesson) (s s' : Store)
    (h1 : Over D latin ls) (h2 : Over D cyrillic lc) (h : Prepared (ls ++ lc)) (p1 : latin.Perm latin')
    (p2 : cyrillic.Perm cyrillic') :
    learningScript S D latin cyrillic s = learningScript S' D latin' cyrillic' s' := by
  obtain ⟨ls', q1, o1⟩ := over_perm p1 h1
  obtain ⟨lc', q2, o2⟩ := over_perm p2 h2
  have h' := h.perm (q1.append q2)
  obtain ⟨t1, t2, g1, g2, g3, d1, d2, d3, _, _, _, ⟨w1, w2, w3⟩, _, ⟨m1, m2, m3⟩, e⟩ :=
    script_runs S D latin cyrillic ls lc s h1 h2 h
  obtain ⟨t1', t2', g1', g2', g3', d1', d2', d3', _, _, _, ⟨w1', w2', w3'⟩, _, ⟨m1', m2', m3'⟩, e'⟩ :=
    script_runs S' D latin' cyrillic' ls' lc' s' o1 o2 h'
  have a1 := normal_perm h.part.1 q1 m1 m1'
  have a2 := normal_perm h.part.2 q2 m2 m2'
  have a3 := normal_perm h (q1.append q2) m3 m3'
  subst a1 a2 a3
  rw [w1] at w1'
  rw [w2] at w2'
  rw [w3] at w3'
  cases w1'
  cases w2'
  cases w3'
  rw [e, e']

theorem Prepared.of_course {ls : List Lesson} (h : Course 100 ls) : Prepared ls := by
  have hp : ∀ l ∈ ls, l.pics.length = l.words.length := by
    intro l hl
    obtain ⟨_, hpl, _⟩ := line_pics (h.holds l hl)
    have := h.count l hl
    omega
  refine ⟨h.holds, h.count, ?_, h.font, ?_⟩
  · intro l hl a ha
    have hc := hp l hl
    obtain ⟨k, hk, e⟩ := List.mem_iff_getElem.1 ha
    obtain ⟨g, hg, e2, _⟩ := (lessons_glyph ls a ⟨l.words[k]'(by omega), l.job.font, 2 ^ 32 - 1⟩).2 ⟨l, hl, by
      rw [← e]
      exact List.mem_iff_getElem.2 ⟨k, by rw [List.length_zip]; omega, by simp⟩, rfl, rfl⟩
    exact e2 ▸ h.letter g hg
  · have := h.few.2
    have e : (ls.flatMap Lesson.pics).length = (taught ls).length := by
      unfold taught
      rw [List.length_flatMap, List.length_flatMap]
      congr 1
      apply List.map_congr_left
      intro l hl
      rw [List.length_zip, hp l hl, Nat.min_self]
    rw [e]
    exact this

section
variable {P : Type} [ScoreDbl P]

/-- **C97**, with C77: `ocr2_extract_text` with the files that the script leaves for both alphabets reads a line of letters that
stand for one text each, of whichever alphabet. The same with one alphabet is C77 for one group of lines. -/
theorem C97_reads (S : StdSort) (D : Disk) (latin cyrillic : List Run) (ls lc : List Lesson) (s : Store)
    (infos dict : Option TextFile) (ws : List (List Nat)) (image : FileEnv) (i : Image) (bs : List Box) (as : List Image)
    (texts : List (List Nat)) (h1 : Over D latin ls) (h2 : Over D cyrillic lc) (h : Course 100 (ls ++ lc))
    (h4 : ∀ p ∈ taught (ls ++ lc), p.2.length % 4 ≠ 0) (hinf : InfoFile (ls ++ lc) infos) (hd : DictFile S ws dict)
    (hl : loadImage image 128 = .ok i) (hi : LineImage i) (hsp : ∀ b bs, segment i = .ok (b :: bs) → LowHeld b bs)
    (hs : segment i = .ok bs) (hp : Pictures i bs as) (hlen : texts.length = as.length)
    (hm : ∀ (k : Nat) a cs, as[k]? = some a → texts[k]? = some cs → Stands (ls ++ lc) a cs) (hone : Uncut ws texts) :
    ∃ st, learningScript S D latin cyrillic s = (st, .ok 0) ∧
      program P S ⟨st .normBoth, st .datasBoth, image, infos, dict⟩ = .ok ⟨encAll (spacedKept bs texts), 0, bs.length⟩ := by
  obtain ⟨t1, t2, g1, g2, g3, d1, d2, d3, _, _, _, ⟨_, _, w3⟩, _, ⟨_, _, out, eo, et⟩, e⟩ :=
    script_runs S D latin cyrillic ls lc s h1 h2 (Prepared.of_course h)
  obtain ⟨t, d, et', ed, ep⟩ := taught_read (P := P) S h (merged_teaches S (course_teaches h) eo) h4 hinf hd hl hi hsp hs hp
    hlen hm hone
  rw [et] at et'
  cases et'
  rw [w3] at ed
  cases ed
  exact ⟨_, e, ep⟩

end

/-! ### Examples -/

/-- A disk with one picture, and the text of its letters under the name `t`; `u` has a word too few. -/
def deskDisk : Disk := ⟨fun _ => ppm blockGap, fun n => if n = [117] then some (bytes "a") else some (bytes " a ! \na\n")⟩

/-- What was there before. -/
def oldStore : Store := fun _ => some [120]

/-- A line for each alphabet. -/
theorem desk_over : Over deskDisk [⟨[112], [116], bytes "font"⟩] [lesson] ∧
    Over deskDisk [⟨[112], [116], bytes "font"⟩, ⟨[112], [116], bytes "font"⟩] [lesson, lesson] := by
  constructor
  · unfold Over deskDisk lesson
    simp
  · unfold Over deskDisk lesson
    simp

/-- The line can be learnt from with the threshold of the script. -/
theorem desk_prepared : Prepared [lesson, lesson, lesson] := by
  have hl : lesson.Holds 100 :=
    ⟨⟨_, rfl, lesson_words⟩, by decide +kernel, by decide, by decide +kernel, ⟨by decide, by decide, by decide, trivial⟩⟩
  have h3 : ∀ l ∈ [lesson, lesson, lesson], l = lesson := by simp
  refine ⟨?_, ?_, ?_, ?_, by decide⟩
  · intro l h
    rw [h3 l h]
    exact hl
  · intro l h
    rw [h3 l h]
    rfl
  · intro l h a ha
    rw [h3 l h] at ha
    obtain ⟨_, _, hp⟩ := line_pics hl
    obtain ⟨wf, _⟩ := hp a ha
    simp only [lesson, List.mem_cons, List.not_mem_nil, or_false] at ha
    rcases ha with rfl | rfl | rfl <;> exact ⟨wf, by decide, by decide, by decide, by decide⟩
  · intro l h
    rw [h3 l h]
    refine ⟨by decide +kernel, ?_⟩
    decide +kernel

/-- The script on them. -/
example : ∃ st, learningScript insertionSort deskDisk [⟨[112], [116], bytes "font"⟩]
      [⟨[112], [116], bytes "font"⟩, ⟨[112], [116], bytes "font"⟩] oldStore = (st, .ok 0) ∧
    st .normBoth = some (bytes "1 2 xx\n1\n! font 4294967295\n2 2 xxxx\n1\na font 4294967295\n") ∧ st .glyphsLatin = none := by
  obtain ⟨st, e, _⟩ := C97_script insertionSort deskDisk _ _ _ _ oldStore desk_over.1 desk_over.2 desk_prepared
  have h : (learningScript insertionSort deskDisk [⟨[112], [116], bytes "font"⟩]
      [⟨[112], [116], bytes "font"⟩, ⟨[112], [116], bytes "font"⟩] oldStore).1 .normBoth =
        some (bytes "1 2 xx\n1\n! font 4294967295\n2 2 xxxx\n1\na font 4294967295\n") ∧
      (learningScript insertionSort deskDisk [⟨[112], [116], bytes "font"⟩]
      [⟨[112], [116], bytes "font"⟩, ⟨[112], [116], bytes "font"⟩] oldStore).1 .glyphsLatin = none := by decide +kernel
  rw [e] at h
  exact ⟨st, e, h⟩

/-- A text with a word too few: the script fails and the old files are still there. -/
example : (learningScript insertionSort deskDisk [⟨[112], [116], bytes "font"⟩] [⟨[112], [117], bytes "font"⟩] oldStore).2 =
      .throw ∧
    (learningScript insertionSort deskDisk [⟨[112], [116], bytes "font"⟩] [⟨[112], [117], bytes "font"⟩] oldStore).1 .normLatin =
      some [120] := by decide +kernel

/-- With a blank in the name of a font the script fails in `normalize_glyphs`, and the normalised glyph file that was there is
empty now. -/
theorem C97_emptied :
    (learningScript insertionSort deskDisk [⟨[112], [116], bytes "a font"⟩] [] oldStore).2 = .ok 5 ∧
    (learningScript insertionSort deskDisk [⟨[112], [116], bytes "a font"⟩] [] oldStore).1 .normLatin = some [] := by
  decide +kernel

theorem C97_false : ¬ C97_statement insertionSort := by
  intro h
  obtain ⟨h1, h2⟩ := C97_emptied
  have := h deskDisk [⟨[112], [116], bytes "a font"⟩] [] oldStore (by rw [h1]; decide) .normLatin (by decide) (by decide)
  rw [h2] at this
  exact absurd this (by decide)

end Ppocr.Props

import Verif.Proofs.Supplement
import Verif.Props.Learn
import Verif.Props.SortFree

/-! # Learning more letters (C99) -/

namespace Ppocr.Props
open Ppocr Spec

/-- Two tables, the second one with more glyphs, in the same order. -/
structure TwoTables (e : Nat → Nat) (ρ : View → View) (imgs : List Image) (glyphs : List (List View)) (d : Datas)
    (imgs' : List Image) (glyphs' : List (List View)) (d' : Datas) : Prop where
  within : Within e ρ imgs glyphs imgs' glyphs'
  learnt : Learnt imgs d
  learnt' : Learnt imgs' d'
  sized : ∀ i ∈ imgs, Sized i
  sized' : ∀ i ∈ imgs', Sized i
  same : glyphs.length = imgs.length
  same' : glyphs'.length = imgs'.length
  views : [] ∉ glyphs
  views' : [] ∉ glyphs'

/-- The candidates with their words and fonts renumbered. -/
def renumbered (ρ : View → View) (c : Res (List View)) : Res (List View) := do return (← c).map ρ

/-- Full statement of **C99**: glyphs that are far from a letter do not change the candidates of the letter. -/
def C99_statement (P : Type) [Dbl P] : Prop :=
  ∀ (S : StdSort) (e : Nat → Nat) (ρ : View → View) (imgs : List Image) (glyphs : List (List View)) (d : Datas) (imgs' : List Image)
    (glyphs' : List (List View)) (d' : Datas) (bw bw' : List (List Nat)) (a : Image),
    TwoTables e ρ imgs glyphs d imgs' glyphs' d' → (∀ g h, g < h → h < imgs.length → e g < e h) → Sized a →
    checkTables glyphs d = .ok bw → checkTables glyphs' d' = .ok bw' → AddedFar e imgs imgs' a →
    candidates (setupOf S glyphs' d' bw' : Setup P) a = renumbered ρ (candidates (setupOf S glyphs d bw : Setup P) a)

def inkOf (w : Nat) (s : List Nat) : Image := ⟨⟨w, s.length / w⟩, s.map UInt8.ofNat⟩

/-- The letter `L`, the same with a pixel missing, and a box. -/
def ell : Image := inkOf 6 (bytes "xx----xx----xx----xx----xx----xx----xxxxxxxxxxxx")
def ellWorn : Image := inkOf 6 (bytes "xx----xx----xx----xx----xx----xx----xxxxx-xxxxxx")
def ellCut : Image := inkOf 6 (bytes "xx----xx----xx----xx----xx----xx----xxxxxxxxxxx-")
def boxed : Image := inkOf 6 (bytes "xxxxxxx----xx----xx----xx----xx----xx----xxxxxxx")

/-- The letter with a pixel missing is read, also when a box is learnt as another word; no longer when the box was learnt as the same
word: the box, and not the letter that is close, is asked for its zones then. -/
theorem C99_lost : recognise [ell] [[⟨0, 0⟩]] ellWorn = .ok [⟨0, 0⟩] ∧
    recognise [ell, boxed] [[⟨0, 0⟩], [⟨1, 1⟩]] ellWorn = .ok [⟨0, 0⟩] ∧
    recognise [ell, boxed] [[⟨0, 0⟩], [⟨0, 1⟩]] ellWorn = .ok [] := by decide +kernel

/-- Two boxes learnt as another word in front of the letters change the numbers by which words are told apart (C34): a candidate
is lost. -/
theorem C99_second_lost : recognise [ell, ellCut] [[⟨0, 0⟩], [⟨1, 0⟩]] ellWorn = .ok [⟨1, 0⟩, ⟨0, 0⟩] ∧
    recognise [boxed, boxed, ell, ellCut] [[⟨2, 0⟩], [⟨2, 1⟩], [⟨0, 0⟩], [⟨1, 0⟩]] ellWorn = .ok [⟨1, 0⟩] := by decide +kernel

def ellLine : Image := inkOf 7 (bytes "xx-----xx-----xx-----xx-----xx-----xx-----xxxxxx-xxxxxx-")
def boxedLine : Image := inkOf 7 (bytes "xxxxxx-x----x-x----x-x----x-x----x-x----x-x----x-xxxxxx-")
/-- The letter and the one with a pixel missing. -/
def ellsLine : Image := inkOf 14 (bytes ("xx-----xx-----xx-----xx-----xx-----xx-----xx-----xx-----xx-----xx-----xx-----xx-----" ++
  "xxxxxx-xxxxx--xxxxxx-xxxxxx-"))

/-- What the programs do: `LL` is read after learning from `L`, and after learning from `L` and a box shown as `O`. Once the box was
shown as `L`, the second letter is not recognised. -/
theorem C99_programs :
    learnAndRead Frac insertionSort 128 [⟨ppm ellLine, some (bytes "L"), bytes "f"⟩] (ppm ellsLine) none none = .ok ⟨[76, 76], 0, 2⟩ ∧
    learnAndRead Frac insertionSort 128 [⟨ppm ellLine, some (bytes "L"), bytes "f"⟩, ⟨ppm boxedLine, some (bytes "O"), bytes "g"⟩]
      (ppm ellsLine) none none = .ok ⟨[76, 76], 0, 2⟩ ∧
    learnAndRead Frac insertionSort 128 [⟨ppm ellLine, some (bytes "L"), bytes "f"⟩, ⟨ppm boxedLine, some (bytes "L"), bytes "g"⟩]
      (ppm ellsLine) none none = .ok ⟨[76, 63], 1, 2⟩ := by
  refine ⟨?_, ?_, ?_⟩ <;> decide +kernel

theorem ink_sized : Sized ell ∧ Sized ellWorn ∧ Sized ellCut ∧ Sized boxed := by
  refine ⟨?_, ?_, ?_, ?_⟩ <;> refine sized_small ⟨?_, ?_, ?_, ?_⟩ ?_ ?_ ?_ <;> decide +kernel

/-- The box is far from the letter. -/
theorem boxed_far : Far boxed ellWorn := by
  have h : (do
      let ri ← boxed.rotate90
      let ra ← ellWorn.rotate90
      let x ← feature (.hdirection, .img) boxed ri
      let y ← feature (.hdirection, .img) ellWorn ra
      return (x.toNum, y.toNum)) = .ok (100, 69) := by
    decide +kernel
  obtain ⟨ri, e1, h⟩ := Res.bind_eq_ok.1 h
  obtain ⟨ra, e2, h⟩ := Res.bind_eq_ok.1 h
  obtain ⟨x, e3, h⟩ := Res.bind_eq_ok.1 h
  obtain ⟨y, e4, h⟩ := Res.bind_eq_ok.1 h
  obtain ⟨_, h2, _, h4⟩ := ink_sized
  obtain ⟨n, f3, _⟩ := feature_simple (s := (.hdirection, .img)) (by decide) h4 (h4.rotated e1)
  obtain ⟨m, f4, _⟩ := feature_simple (s := (.hdirection, .img)) (by decide) h2 (h2.rotated e2)
  rw [e3] at f3
  rw [e4] at f4
  cases f3
  cases f4
  have h : (n, m) = (100, 69) := Res.ok.inj h
  obtain ⟨rfl, rfl⟩ := Prod.mk.inj h
  exact ⟨(.hdirection, .img), by decide, ri, ra, 100, 69, e1, e2, e3, e4, by decide⟩

/-- A glyph added behind the others. -/
theorem within_append {imgs : List Image} {glyphs : List (List View)} (i : Image) (vs : List View) :
    Within id id imgs glyphs (imgs ++ [i]) (glyphs ++ [vs]) := by
  refine ⟨?_, ?_, fun _ _ _ _ h => h, fun _ _ _ _ _ _ _ _ => Iff.rfl⟩
  · intro g a h
    show (imgs ++ [i])[g]? = _
    rw [List.getElem?_append_left (List.getElem?_eq_some_iff.1 h).1]
    exact h
  · intro g us h
    show (glyphs ++ [vs])[g]? = _
    rw [List.getElem?_append_left (List.getElem?_eq_some_iff.1 h).1, h]
    simp

theorem added_append {imgs : List Image} {i j : Image} {g : Nat} (ha : Added id imgs g) (h : (imgs ++ [i])[g]? = some j) :
    g = imgs.length ∧ j = i := by
  have hg : ¬ g < imgs.length := fun h => ha g h rfl
  rw [List.getElem?_append_right (by omega)] at h
  have : g - imgs.length = 0 := by
    have := (List.getElem?_eq_some_iff.1 h).1
    simp only [List.length_cons, List.length_nil] at this
    omega
  rw [this] at h
  simp only [List.getElem?_cons_zero, Option.some.injEq] at h
  exact ⟨by omega, h.symm⟩

theorem C99_false : ¬ C99_statement Frac := by
  intro hst
  obtain ⟨h1, h2, _, h4⟩ := ink_sized
  have hs1 : ∀ i ∈ [ell], Sized i := by
    intro i hi
    rw [List.mem_singleton.1 hi]
    exact h1
  have hs2 : ∀ i ∈ [ell, boxed], Sized i := by
    intro i hi
    simp only [List.mem_cons, List.not_mem_nil, or_false] at hi
    rcases hi with rfl | rfl
    · exact h1
    · exact h4
  obtain ⟨d, e1, l1⟩ := learnt_loadAll [ell] hs1
  obtain ⟨d', e2, l2⟩ := learnt_loadAll [ell, boxed] hs2
  obtain ⟨w1, _, w2⟩ := C99_lost
  unfold recognise at w1 w2
  rw [e1, Res.ok_bind] at w1
  rw [e2, Res.ok_bind] at w2
  obtain ⟨bw, b1, w1⟩ := Res.bind_eq_ok.1 w1
  obtain ⟨bw', b2, w2⟩ := Res.bind_eq_ok.1 w2
  have := hst insertionSort id id [ell] [[⟨0, 0⟩]] d [ell, boxed] [[⟨0, 0⟩], [⟨0, 1⟩]] d' bw bw' ellWorn
    ⟨within_append (imgs := [ell]) (glyphs := [[⟨0, 0⟩]]) boxed [⟨0, 1⟩], l1, l2, hs1, hs2, rfl, rfl, by decide, by decide⟩
    (fun _ _ h _ => h) h2 b1 b2 (by
      intro g i ha hg
      rw [(added_append (imgs := [ell]) (i := boxed) ha hg).2]
      exact boxed_far)
  rw [w1, w2] at this
  exact absurd (Res.ok.inj this) (by simp)

section
variable {P : Type} [MonoDbl P] {e : Nat → Nat} {ρ : View → View} {imgs imgs' : List Image} {glyphs glyphs' : List (List View)}
  {d d' : Datas}

theorem checkTables_by (hn : glyphs.length = imgs.length) (hl : Learnt imgs d) {bw : List (List Nat)} (h : checkTables glyphs d = .ok bw) :
    dataIndexesByWords glyphs = .ok bw := by
  unfold checkTables at h
  rwa [if_neg (by rw [learnt_size hl, hn]; simp)] at h

/-- **C99**, partial: if no added glyph has the first word of a glyph that was there, and both tables are in the order of the words,
a letter whose candidates do not depend on `std::sort` (C72) has the same candidates as before, or is undefined as before. Missing:
the other tables and words, where it is false. -/
theorem C99_candidates_partial (S S' : StdSort) (h : TwoTables e ρ imgs glyphs d imgs' glyphs' d')
    (hmono : ∀ g h, g < h → h < imgs.length → e g < e h) (hnew : NewWords e imgs glyphs') (ho : InWordOrder glyphs)
    (ho' : InWordOrder glyphs') {bw bw' : List (List Nat)} (hb : checkTables glyphs d = .ok bw)
    (hb' : checkTables glyphs' d' = .ok bw') {a r : Image} (ha : Sized a) (hr : a.rotate90 = .ok r) (hfar : AddedFar e imgs imgs' a)
    (hset : Settled (setupOf S glyphs d bw : Setup P) a r) :
    candidates (setupOf S' glyphs' d' bw' : Setup P) a = renumbered ρ (candidates (setupOf S glyphs d bw : Setup P) a) := by
  have hk := checkTables_by h.same h.learnt hb
  have hk' := checkTables_by h.same' h.learnt' hb'
  unfold candidates renumbered
  rw [hr, Res.ok_bind, Res.ok_bind]
  by_cases hc : Blocked imgs glyphs a
  · have hc' := (blocked_within h.same h.same' h.views h.within hnew hmono hfar).2 hc
    rw [blocked_ub S glyphs bw h.learnt h.sized h.same hk h.views ha hr hc,
      blocked_ub S' glyphs' bw' h.learnt' h.sized' h.same' hk' h.views' ha hr hc']
    rfl
  have hc' : Comparable imgs' glyphs' a := fun hb => hc ((blocked_within h.same h.same' h.views h.within hnew hmono hfar).1 hb)
  have hm : Moved (setupOf S glyphs d bw : Setup P) (setupOf S' glyphs' d' bw') imgs.length imgs'.length e ρ a r :=
    moved_of S S' h.learnt h.learnt' h.sized h.same h.same' h.views h.views' hk hk' h.within hnew hr hfar
  have hids : ∀ (T : StdSort) (gs : List (List View)), InWordOrder gs → ∀ i j, i < gs.length → j < gs.length →
      ((viewsIndexes T gs).getD i 0 = (viewsIndexes T gs).getD j 0 ↔ wordsOf (gs.getD i []) = wordsOf (gs.getD j [])) := by
    intro T gs hw i j hi hj
    have hs' : gs.Pairwise fun a b => ltViews b a = false := hw.imp fun h => (ltViews_eq_false _ _).2 h
    rw [← viewsIndexes_of_sorted T gs hs' i j hi hj]
    obtain ⟨_, _, _, hlen, _⟩ := viewsIndexes_sorted T gs
    rw [List.getD_eq_getElem?_getD, List.getD_eq_getElem?_getD, List.getElem?_eq_getElem (by omega : i < _),
      List.getElem?_eq_getElem (by omega : j < (viewsIndexes T gs).length)]
    simp
  obtain ⟨o, o', e1, e2, e3⟩ := computeImage_moved_same hm
    (comparable_ok S glyphs bw h.learnt h.sized h.same hk h.views ha hr hc)
    (comparable_ok S' glyphs' bw' h.learnt' h.sized' h.same' hk' h.views' ha hr hc') rfl hset (by
      intro g k hg hkk
      show (viewsIndexes S glyphs).getD g 0 = _ ↔ (viewsIndexes S' glyphs').getD (e g) 0 = _
      have l1 := within_lt h.within hg
      have l2 := within_lt h.within hkk
      refine Iff.trans (hids S glyphs ho g k (by rw [h.same]; exact hg) (by rw [h.same]; exact hkk)) ?_
      refine Iff.trans ?_ (hids S' glyphs' ho' (e g) (e k) (by rw [h.same']; exact l1) (by rw [h.same']; exact l2)).symm
      have v1 : glyphs'.getD (e g) [] = (glyphs.getD g []).map ρ := hm.views g hg
      have v2 : glyphs'.getD (e k) [] = (glyphs.getD k []).map ρ := hm.views k hkk
      rw [v1, v2]
      have mem : ∀ j, j < imgs.length → glyphs.getD j [] ∈ glyphs := by
        intro j hj
        rw [List.getD_eq_getElem?_getD, List.getElem?_eq_getElem (by rw [h.same]; exact hj)]
        exact List.getElem_mem _
      have key : ∀ us ∈ glyphs, ∀ vs ∈ glyphs, ∀ us' vs' : List View, (∀ u ∈ us', u ∈ us) → (∀ v ∈ vs', v ∈ vs) →
          (wordsOf us' = wordsOf vs' ↔ wordsOf (us'.map ρ) = wordsOf (vs'.map ρ)) := by
        intro us hus vs hvs us'
        induction us' with
        | nil =>
          intro vs' _ _
          cases vs' <;> simp [wordsOf]
        | cons u us' ih =>
          intro vs' m1 m2
          cases vs' with
          | nil => simp [wordsOf]
          | cons v vs' =>
            have := ih vs' (fun x hx => m1 x (by simp [hx])) (fun x hx => m2 x (by simp [hx]))
            have hw := h.within.words us hus u (m1 u (by simp)) vs hvs v (m2 v (by simp))
            unfold wordsOf at this ⊢
            simp only [List.map_cons, List.cons.injEq]
            rw [this, hw]
      exact key _ (mem g hg) _ (mem k hkk) _ _ (fun _ h => h) fun _ h => h) [] []
  rw [e1, e2]
  exact congrArg Res.ok e3

/-- **C99**, partial: in tables in any order, the letter is recognised as before or not at all as before, and the first candidates,
those of the best glyph, are the same. -/
theorem C99_first_partial (S S' : StdSort) (h : TwoTables e ρ imgs glyphs d imgs' glyphs' d') (hnew : NewWords e imgs glyphs')
    {bw bw' : List (List Nat)} (hb : checkTables glyphs d = .ok bw) (hb' : checkTables glyphs' d' = .ok bw') {a r : Image} (ha : Sized a)
    (hr : a.rotate90 = .ok r) (hc : Comparable imgs glyphs a) (hc' : Comparable imgs' glyphs' a) (hfar : AddedFar e imgs imgs' a)
    (hset : Settled (setupOf S glyphs d bw : Setup P) a r) :
    ∃ vs vs', candidates (setupOf S glyphs d bw : Setup P) a = .ok vs ∧ candidates (setupOf S' glyphs' d' bw' : Setup P) a = .ok vs' ∧
      ((vs = [] ∧ vs' = []) ∨ ∃ us ∈ glyphs, us ≠ [] ∧ us <+: vs ∧ us.map ρ <+: vs') := by
  have hk := checkTables_by h.same h.learnt hb
  have hk' := checkTables_by h.same' h.learnt' hb'
  have hm : Moved (setupOf S glyphs d bw : Setup P) (setupOf S' glyphs' d' bw') imgs.length imgs'.length e ρ a r :=
    moved_of S S' h.learnt h.learnt' h.sized h.same h.same' h.views h.views' hk hk' h.within hnew hr hfar
  obtain ⟨o, o', e1, e2, e3⟩ := computeImage_moved_first hm
    (comparable_ok S glyphs bw h.learnt h.sized h.same hk h.views ha hr hc)
    (comparable_ok S' glyphs' bw' h.learnt' h.sized' h.same' hk' h.views' ha hr hc') rfl hset [] []
  unfold candidates
  rw [hr, Res.ok_bind, Res.ok_bind, e1, e2]
  refine ⟨_, _, rfl, rfl, e3.imp id ?_⟩
  rintro ⟨g, m, m', hg, v1, v2⟩
  have hmem : glyphs.getD g [] ∈ glyphs := by
    rw [List.getD_eq_getElem?_getD, List.getElem?_eq_getElem (by rw [h.same]; exact hg)]
    exact List.getElem_mem _
  exact ⟨_, hmem, fun h0 => h.views (h0 ▸ hmem), ⟨m, v1.symm⟩, ⟨m', v2.symm⟩⟩

end

/-- **C99**, partial, the programs: after more lessons, the text read on a line is the same if each of its letters looks like one
shown before, and the new letters that look like it are shown with its word. No letter looks like one that is far from it. -/
theorem C99_lessons_partial {P : Type} [ScoreDbl P] (S : StdSort) (lum : Nat) (ls more : List Lesson) (infos dict : Option TextFile)
    (ws : List (List Nat)) (image : FileEnv) (i : Image) (bs : List Box) (as : List Image) (texts : List (List Nat))
    (h : Course lum (ls ++ more)) (h0 : Course lum ls)
    (h4 : ∀ p ∈ taught (ls ++ more), p.2.length % 4 ≠ 0) (hinf : InfoFile ls infos) (hinf' : InfoFile (ls ++ more) infos)
    (hd : DictFile S ws dict) (hl : loadImage image 128 = .ok i) (hi : LineImage i)
    (hsp : ∀ b bs, segment i = .ok (b :: bs) → LowHeld b bs) (hs : segment i = .ok bs) (hp : Pictures i bs as)
    (hlen : texts.length = as.length) (hm : ∀ (k : Nat) a cs, as[k]? = some a → texts[k]? = some cs → Stands ls a cs)
    (hmore : ∀ (k : Nat) a cs, as[k]? = some a → texts[k]? = some cs → ∀ p ∈ taught more, Alike p.1 a → p.2 = encAll cs)
    (hone : Uncut ws texts) :
    learnAndRead P S lum ((ls ++ more).map Lesson.job) image infos dict = learnAndRead P S lum (ls.map Lesson.job) image infos dict := by
  have ht : taught (ls ++ more) = taught ls ++ taught more := List.flatMap_append
  rw [C67_exact_partial S lum ls infos dict ws image i bs as texts h0 (fun p hp => h4 p (by rw [ht]; simp [hp])) hinf hd hl hi hsp hs hp
    hlen hm hone]
  refine C67_exact_partial S lum (ls ++ more) infos dict ws image i bs as texts h h4 hinf' hd hl hi hsp hs hp hlen ?_ hone
  intro k a cs ha hc
  obtain ⟨h1, ⟨p, hp, hpa⟩, h3⟩ := hm k a cs ha hc
  refine ⟨h1, ⟨p, by rw [ht]; simp [hp], hpa⟩, fun q hq hqa => ?_⟩
  rw [ht] at hq
  rcases List.mem_append.1 hq with hq | hq
  · exact h3 q hq hqa
  · exact hmore k a cs ha hc q hq hqa

/-- The line of the lesson is read as before after a lesson with `L`. -/
example : learnAndRead Frac insertionSort 128 [lesson.job] (ppm blockGap) none none = .ok ⟨bytes "a! a", 0, 3⟩ ∧
    learnAndRead Frac insertionSort 128 [lesson.job, ⟨ppm ellLine, some (bytes "L"), bytes "f"⟩] (ppm blockGap) none none =
      .ok ⟨bytes "a! a", 0, 3⟩ := by
  constructor <;> decide +kernel

/-- Far pictures do not look alike. -/
theorem C99_far_not_alike {i a : Image} (h : Far i a) : ¬ Alike i a := far_not_alike h

/-- The box as another word: the candidates of the worn letter are those found without it. -/
example : ∃ d d' bw bw' r, Datas.empty.loadAll [ell] = .ok d ∧ Datas.empty.loadAll [ell, boxed] = .ok d' ∧
    TwoTables id id [ell] [[⟨0, 0⟩]] d [ell, boxed] [[⟨0, 0⟩], [⟨1, 1⟩]] d' ∧ NewWords id [ell] [[⟨0, 0⟩], [⟨1, 1⟩]] ∧
    InWordOrder [[⟨0, 0⟩]] ∧ InWordOrder [[⟨0, 0⟩], [⟨1, 1⟩]] ∧ AddedFar id [ell] [ell, boxed] ellWorn ∧ checkTables [[⟨0, 0⟩]] d = .ok bw ∧ checkTables [[⟨0, 0⟩], [⟨1, 1⟩]] d' = .ok bw' ∧
    ellWorn.rotate90 = .ok r ∧ Settled (setupOf insertionSort [[⟨0, 0⟩]] d bw : Setup Frac) ellWorn r ∧
    candidates (setupOf insertionSort [[⟨0, 0⟩]] d bw : Setup Frac) ellWorn = .ok [⟨0, 0⟩] := by
  obtain ⟨h1, h2, _, h4⟩ := ink_sized
  have hs1 : ∀ i ∈ [ell], Sized i := by
    intro i hi
    rw [List.mem_singleton.1 hi]
    exact h1
  have hs2 : ∀ i ∈ [ell, boxed], Sized i := by
    intro i hi
    simp only [List.mem_cons, List.not_mem_nil, or_false] at hi
    rcases hi with rfl | rfl
    · exact h1
    · exact h4
  obtain ⟨d, e1, l1⟩ := learnt_loadAll [ell] hs1
  obtain ⟨d', e2, l2⟩ := learnt_loadAll [ell, boxed] hs2
  obtain ⟨w1, w2, _⟩ := C99_lost
  unfold recognise at w1 w2
  rw [e1, Res.ok_bind] at w1
  rw [e2, Res.ok_bind] at w2
  obtain ⟨bw, b1, w1⟩ := Res.bind_eq_ok.1 w1
  obtain ⟨bw', b2, w2⟩ := Res.bind_eq_ok.1 w2
  obtain ⟨r, hr, _⟩ := h2.rotate
  have only : ∀ g, Close (setupOf insertionSort [[⟨0, 0⟩]] d bw : Setup Frac) ellWorn r g → g = 0 := by
    intro g hc
    obtain ⟨t, ht, _⟩ := hc (d.simple firstStrat) (by simp [setupOf])
    have hlen : (d.simple firstStrat).tab.length = 1 := by
      show ((d.get firstStrat).map Value.toNum).length = 1
      rw [List.length_map]
      exact (get_learnt l1 (by decide)).1
    have := (List.getElem?_eq_some_iff.1 ht).1
    omega
  refine ⟨d, d', bw, bw', r, e1, e2, ⟨within_append (imgs := [ell]) (glyphs := [[⟨0, 0⟩]]) boxed [⟨1, 1⟩], l1, l2, hs1, hs2, rfl, rfl,
    by decide, by decide⟩, ?_, by unfold InWordOrder; decide, by unfold InWordOrder; decide, ?_, b1, b2, hr,
    ⟨fun g h hg hh _ _ => by rw [only g hg, only h hh], fun g h hg hh _ _ _ _ => by rw [only g hg, only h hh]⟩, w1⟩
  · intro g ha k hk
    have hg : ¬ g < 1 := fun h => ha g h rfl
    have hk : k = 0 := by simp only [List.length_cons, List.length_nil] at hk; omega
    subst hk
    match g, hg with
    | 1, _ => decide
    | g + 2, _ =>
      unfold firstWord
      simp
  · intro g i ha hg
    rw [(added_append (imgs := [ell]) (i := boxed) ha hg).2]
    exact boxed_far

end Ppocr.Props

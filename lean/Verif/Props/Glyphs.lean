import Verif.Proofs.GlyphsLoad

/-! # C46-C49: glyph files and the words in memory -/

namespace Ppocr.Props
open Ppocr Spec

/-! ## C46 -/

/-- **C46**: the glyphs that can be written (`Good`: words and fonts are non-empty and without blanks, the numbers
are `unsigned`, the pixels fill the image) are read back, behind those already in the target, equal and in the
same order; then the stream is at its end. -/
theorem C46_round_trip (gs old : List LGlyph) (h : ∀ g ∈ gs, g.Good) :
    ∃ t, glyphsWrite gs = .ok t ∧ glyphsRead (IS.of t) old = .ok (old ++ gs, ⟨[], true, true, true⟩) := by
  obtain ⟨t, ht, hl⟩ := glyphsWrite_total h
  refine ⟨t, ht, ?_⟩
  have := glyphsLoop_write gs t [] (t.length + 1) [] old h ht (by simp) (by omega)
  exact this

/-- Reading ends on every input; the glyphs already there are kept. -/
theorem C46_total (s : IS) (old : List LGlyph) :
    ∃ gs s', glyphsRead s old = .ok (old ++ gs, s') ∧ s'.fail = true :=
  glyphsLoop_total (s.rest.length + 1) s [] old (by omega)

/-- Two glyphs, the second without views. -/
def twoGlyphs : List LGlyph :=
  [⟨⟨⟨2, 1⟩, [120, 45]⟩, [⟨[0xC3, 0xA9], [97, 46, 116], 3⟩, ⟨[101], [98], 12⟩]⟩, ⟨⟨⟨1, 1⟩, [120]⟩, []⟩]

def bytes (s : String) : List Nat := s.toUTF8.toList.map UInt8.toNat

example : glyphsWrite twoGlyphs = .ok (bytes "2 1 x-\n2\né a.t 3\ne b 12\n1 1 x\n0\n") ∧
    glyphsRead (IS.of (bytes "2 1 x-\n2\né a.t 3\ne b 12\n1 1 x\n0\n")) [] =
      .ok (twoGlyphs, ⟨[], true, true, true⟩) := by decide +kernel

/-- Blanks in a word do not survive. -/
example : (do let t ← glyphsWrite [⟨⟨⟨1, 1⟩, [120]⟩, [⟨[97, 32, 98], [99], 1⟩]⟩]
              let r ← glyphsRead (IS.of t) []
              return r.1) = Res.ok [] := by decide

/-! ## C47 -/

/-- What the recogniser loaded agrees with the glyphs: the same glyphs and views in the same order; the words and
the fonts are numbered, `get_word` gives the word of a number, and different words or fonts have different
numbers. -/
def Agree (gs : List LGlyph) (G : RGlyphs) : Prop :=
  ∃ wid fid : List Nat → Nat,
    G.views = gs.map (fun g => g.views.map fun v => ⟨wid v.word, fid v.font⟩) ∧
    (∀ v ∈ allViews gs, getWord G.buf (wid v.word) = .ok v.word) ∧
    (∀ u ∈ allViews gs, ∀ v ∈ allViews gs, wid u.word = wid v.word → u.word = v.word) ∧
    ∀ u ∈ allViews gs, ∀ v ∈ allViews gs, fid u.font = fid v.font → u.font = v.font

/-- The size of all words is below 2^32. -/
def SmallWords (gs : List LGlyph) : Prop := ((allViews gs).map fun v => v.word.length + 1).sum < W32

/-- **C47** as stated. -/
def C47_statement : Prop :=
  ∀ gs t, (∀ g ∈ gs, g.Good) → SmallWords gs → glyphsWrite gs = .ok t →
    ∃ G s, rglyphsRead (IS.of t) [] = .ok (G, s) ∧ Agree gs G

/-- A glyph without views, then one with a view. -/
def noView : List LGlyph := [⟨⟨⟨1, 1⟩, [120]⟩, []⟩, ⟨⟨⟨2, 1⟩, [120, 45]⟩, [⟨[97], [98], 0⟩]⟩]

theorem noView_good : ∀ g ∈ noView, g.Good := by
  intro g hg
  simp only [noView, List.mem_cons, List.not_mem_nil, or_false] at hg
  rcases hg with rfl | rfl
  · exact ⟨⟨rfl, by decide, by decide, by decide⟩, by simp, by decide⟩
  · refine ⟨⟨rfl, by decide, by decide, by decide⟩, ?_, by decide⟩
    intro v hv
    simp only [List.mem_singleton] at hv
    subst hv
    exact ⟨⟨by simp, by decide⟩, ⟨by simp, by decide⟩, by decide⟩

/-- It is false: after a glyph without views the recogniser takes the image of the next one for its views, here
twice the word `1`. -/
theorem C47_wrong_views : ¬ C47_statement := by
  intro h
  have e : glyphsWrite noView = .ok (bytes "1 1 x\n0\n2 1 x-\n1\na b 0\n") := by decide +kernel
  obtain ⟨G, s, e1, wid, fid, e2, _⟩ := h noView _ noView_good (by unfold SmallWords; decide) e
  have e3 : rglyphsRead (IS.of (bytes "1 1 x\n0\n2 1 x-\n1\na b 0\n")) [] =
      .ok (⟨[[], [⟨0, 0⟩, ⟨0, 1⟩]], [some 1, some 0, some 0, some 0, some 49, some 0, none, none], 2⟩,
        ⟨[], true, true, true⟩) := by decide +kernel
  rw [e3] at e1
  injection e1 with e1
  injection e1 with e1 _
  subst e1
  simp [noView] at e2

/-- Nor without such glyphs: for the single word `abcd` a byte is written behind the buffer. -/
theorem C47_wrong_word :
    (do let t ← glyphsWrite [⟨⟨⟨1, 1⟩, [120]⟩, [⟨[97, 98, 99, 100], [98], 0⟩]⟩]
        rglyphsRead (IS.of t) []) = .ub := by decide

/-- The greatest of the words, in the order of their bytes. -/
def Greatest (gs : List LGlyph) (w : List Nat) : Prop :=
  (∃ v ∈ allViews gs, v.word = w) ∧ ∀ u ∈ allViews gs, wordLt w u.word = false

theorem getLast_greatest {ws : List (List Nat)} (hi : Increasing ws) {w : List Nat} (h : ws.getLast? = some w) :
    ∀ u ∈ ws, wordLt w u = false := by
  intro u hu
  rw [List.getLast?_eq_some_iff] at h
  obtain ⟨ys, rfl⟩ := h
  have := List.pairwise_append.1 hi
  rcases List.mem_append.1 hu with hu | hu
  · exact wordLt_asymm (this.2.2 u hu w (by simp))
  · simp only [List.mem_singleton] at hu
    subst hu
    exact wordLt_irrefl _

theorem smallWords_room {gs : List LGlyph} (hg : ∀ g ∈ gs, g.Good) (h : SmallWords gs) :
    (((allViews gs).map LView.word).map room).sum < W32 ∧ (allViews gs).length < W32 ∧
      ∀ v ∈ allViews gs, v.word.length < W32 := by
  have hne : ∀ v ∈ allViews gs, v.word ≠ [] := by
    intro v hv
    simp only [allViews, List.mem_flatMap] at hv
    obtain ⟨g, h1, h2⟩ := hv
    exact ((hg g h1).views v h2).1.1
  unfold SmallWords at h
  generalize allViews gs = vs at h hne
  have : (((vs.map LView.word).map room).sum ≤ (vs.map fun v => v.word.length + 1).sum) ∧
      vs.length ≤ (vs.map fun v => v.word.length + 1).sum ∧
      ∀ v ∈ vs, v.word.length ≤ (vs.map fun v => v.word.length + 1).sum := by
    clear h
    induction vs with
    | nil => simp
    | cons v vs ih =>
      obtain ⟨h1, h2, h3⟩ := ih fun u hu => hne u (by simp [hu])
      have hp := List.length_pos_iff.2 (hne v (by simp))
      refine ⟨?_, ?_, ?_⟩
      · simp only [List.map_cons, List.sum_cons]
        have : room v.word ≤ v.word.length + 1 := by unfold room; omega
        omega
      · simp only [List.length_cons, List.map_cons, List.sum_cons]
        omega
      · intro u hu
        simp only [List.map_cons, List.sum_cons]
        rcases List.mem_cons.1 hu with rfl | hu
        · omega
        · have := h3 u hu
          omega
  exact ⟨by omega, by omega, fun v hv => by have := this.2.2 v hv; omega⟩

/-- **C47**, what holds: every glyph has a view, no pixel is a newline (`Readable`), and the size of the greatest
word is not a multiple of 4. Then the recogniser agrees with the glyphs, which are those the learning tools read
(C46). Missing: glyphs without views, which are misread, and words of 4, 8, … bytes at the end of the order, for
which the loader writes out of bounds. -/
theorem C47_agree_partial (gs : List LGlyph) (h : ∀ g ∈ gs, g.Readable) (hs : SmallWords gs)
    (h4 : ∀ w, Greatest gs w → w.length % 4 ≠ 0) :
    ∃ t G, glyphsWrite gs = .ok t ∧ rglyphsRead (IS.of t) [] = .ok (G, ⟨[], true, true, true⟩) ∧ Agree gs G := by
  have hgood : ∀ g ∈ gs, g.Good := fun g hg => (h g hg).toGood
  obtain ⟨t, ht, hl⟩ := glyphsWrite_total hgood
  obtain ⟨hr, hc, hw⟩ := smallWords_room hgood hs
  obtain ⟨wm, fm, e, m1, m2, _, _, k1, k2⟩ := rglyphsLoop_write gs t (t.length + 1) [] [] [] h ht (by omega)
    mapOk_nil mapOk_nil (by simpa using hc) (by simpa using hc)
  have hkeys : ∀ w, w ∈ wm.map Prod.fst ↔ w ∈ (allViews gs).map LView.word := by
    intro w
    rw [k1 w]
    simp
  have hfkeys : ∀ w, w ∈ fm.map Prod.fst ↔ w ∈ (allViews gs).map LView.font := by
    intro w
    rw [k2 w]
    simp
  have hroom : ((wm.map Prod.fst).map room).sum < W32 := by
    have := sum_room_le (a := wm.map Prod.fst) (b := (allViews gs).map LView.word) m1.sorted.nodup
      fun w hw => (hkeys w).1 hw
    omega
  obtain ⟨b, e2, hb⟩ := finishGlyphs_ok m1 hroom (by
    intro w hw
    apply h4 w
    refine ⟨?_, ?_⟩
    · have := (hkeys w).1 (List.mem_of_getLast? hw)
      obtain ⟨v, hv, e⟩ := List.mem_map.1 this
      exact ⟨v, hv, e⟩
    · intro u hu
      exact getLast_greatest m1.sorted hw _ ((hkeys _).2 (List.mem_map.2 ⟨u, hu, rfl⟩)))
    (gs.map fun g => g.views.map fun v => (v.word, idOf fm v.font)) (by
      intro g hg v hv
      obtain ⟨g', hg', rfl⟩ := List.mem_map.1 hg
      obtain ⟨v', hv', rfl⟩ := List.mem_map.1 hv
      refine (hkeys _).2 (List.mem_map.2 ⟨v', ?_, rfl⟩)
      simp only [allViews, List.mem_flatMap]
      exact ⟨g', hg', hv'⟩)
  have a1 : ∀ f : List Nat → Nat, (gs.map fun g => g.views.map fun v => (v.word, idOf fm v.font)).map
      (List.map fun v : List Nat × Nat => (⟨f v.1, v.2⟩ : View)) =
      gs.map fun g => g.views.map fun v => ⟨f v.word, idOf fm v.font⟩ := by
    intro f
    simp [Function.comp_def]
  rw [a1 (idOf wm), a1 (place (wm.map Prod.fst))] at e2
  refine ⟨t, ⟨_, b, ((wm.map Prod.fst).map room).sum⟩, ht, ?_, place (wm.map Prod.fst), idOf fm, rfl, ?_, ?_, ?_⟩
  · unfold rglyphsRead
    unfold IS.of
    simp only []
    rw [e, Res.ok_bind]
    simp only [List.nil_append]
    rw [e2, Res.ok_bind, Res.pure_eq]
  · intro v hv
    have hm := (hkeys v.word).2 (List.mem_map.2 ⟨v, hv, rfl⟩)
    exact getWord_of (hb.holds hm).1 (hw v hv)
  · intro u hu v hv e
    exact place_inj ((hkeys u.word).2 (List.mem_map.2 ⟨u, hu, rfl⟩)) ((hkeys v.word).2 (List.mem_map.2 ⟨v, hv, rfl⟩)) e
  · intro u hu v hv e
    exact idOf_inj m2 ((hfkeys u.font).2 (List.mem_map.2 ⟨u, hu, rfl⟩))
      ((hfkeys v.font).2 (List.mem_map.2 ⟨v, hv, rfl⟩)) e

/-- Words `é`, `e`, `e`, fonts `a.t`, `b`, `a.t`: the words are numbered by their place. -/
example : rglyphsRead (IS.of (bytes "2 1 x-\n2\né a.t 3\ne b 12\n1 1 x\n1\ne a.t 4\n")) [] =
    .ok (⟨[[⟨2, 0⟩, ⟨0, 1⟩], [⟨0, 0⟩]], [some 1, some 0, some 0, some 0, some 101, some 0, none, none,
      some 2, some 0, some 0, some 0, some 0xC3, some 0xA9, some 0, none], 4⟩, ⟨[], true, true, true⟩) := by
  decide +kernel

/-! ## C48 -/

/-- **C48** as stated, for the map of the words of a file (`MapOk`: its keys are in order and numbered). -/
def C48_statement : Prop :=
  ∀ wm : StrMap, MapOk wm → ((wm.map Prod.fst).map room).sum < W32 →
    ∃ G, finishGlyphs [] wm = .ok G ∧ ∀ w ∈ wm.map Prod.fst,
      Holds G.buf (place (wm.map Prod.fst) w) w ∧ Terminated G.buf (place (wm.map Prod.fst) w) w

/-- The program writes behind the buffer exactly when the size of the greatest word is a multiple of 4. -/
theorem C48_overflow (wm : StrMap) (h : MapOk wm) (hsz : ((wm.map Prod.fst).map room).sum < W32) :
    finishGlyphs [] wm = .ub ↔ ∃ w, (wm.map Prod.fst).getLast? = some w ∧ w.length % 4 = 0 := by
  constructor
  · intro he
    apply Classical.byContradiction
    intro hne
    obtain ⟨b, e, _⟩ := finishGlyphs_ok h hsz (fun w hw h4 => hne ⟨w, hw, h4⟩) [] (by simp)
    rw [List.map_nil] at e
    rw [e] at he
    simp at he
  · rintro ⟨w, h1, h2⟩
    exact finishGlyphs_ub h hsz h1 h2 [] (by simp)

/-- So C48 is false. -/
theorem C48_wrong : ¬ C48_statement := by
  intro h
  have hok : MapOk [([97, 98, 99, 100], 0)] := ⟨by simp, by decide⟩
  obtain ⟨G, e, _⟩ := h [([97, 98, 99, 100], 0)] hok (by decide)
  rw [(C48_overflow _ hok (by decide)).2 ⟨[97, 98, 99, 100], rfl, rfl⟩] at e
  simp at e

/-- Without overflow a word of 4 bytes is still not terminated: the size of the next word follows. -/
theorem C48_not_terminated :
    ∃ G, finishGlyphs [] [([97, 98, 99, 100], 0), ([98], 1)] = .ok G ∧ Holds G.buf 0 [97, 98, 99, 100] ∧
      G.buf[8]? = some (some 1) := by
  have hok : MapOk [([97, 98, 99, 100], 0), ([98], 1)] := ⟨by simp [Increasing, wordLt], by decide⟩
  obtain ⟨b, e, hb⟩ := finishGlyphs_ok hok (by decide) (by
    intro w hw
    simp at hw
    subst hw
    decide) [] (by simp)
  have hh := (hb.holds (w := [97, 98, 99, 100]) (by simp)).1
  have hp : place (List.map Prod.fst [([97, 98, 99, 100], 0), ([98], 1)]) [97, 98, 99, 100] = 0 := by decide
  rw [hp] at hh
  refine ⟨_, e, hh, ?_⟩
  have e' : finishGlyphs [] [([97, 98, 99, 100], 0), ([98], 1)] = .ok ⟨[], [some 4, some 0, some 0, some 0,
    some 97, some 98, some 99, some 100, some 1, some 0, some 0, some 0, some 98, some 0, none, none], 4⟩ := by decide
  rw [List.map_nil, e'] at e
  injection e with e
  injection e with _ e _
  rw [← e]
  rfl

/-- **C48**, what holds: when the size of the greatest word is not a multiple of 4 the buffer is filled without
leaving it, it holds every word at its place, and every word whose size is not a multiple of 4 is terminated.
Missing: the words of 4, 8, … bytes. -/
theorem C48_buffer_partial (wm : StrMap) (h : MapOk wm) (hsz : ((wm.map Prod.fst).map room).sum < W32)
    (hl : ∀ w, (wm.map Prod.fst).getLast? = some w → w.length % 4 ≠ 0) :
    ∃ G, finishGlyphs [] wm = .ok G ∧ ∀ w ∈ wm.map Prod.fst,
      Holds G.buf (place (wm.map Prod.fst) w) w ∧
      (w.length % 4 ≠ 0 → Terminated G.buf (place (wm.map Prod.fst) w) w) := by
  obtain ⟨b, e, hb⟩ := finishGlyphs_ok h hsz hl [] (by simp)
  exact ⟨_, e, fun w hw => hb.holds hw⟩

/-- `e`, `é` in memory. -/
example : finishGlyphs [] [([101], 1), ([0xC3, 0xA9], 0)] =
    .ok ⟨[], [some 1, some 0, some 0, some 0, some 101, some 0, none, none,
      some 2, some 0, some 0, some 0, some 0xC3, some 0xA9, some 0, none], 4⟩ := by decide

/-! ## C49 -/

/-- The words a file can hold, numbered, so that the loader does not leave the buffer. -/
structure WordsOk (wm : StrMap) : Prop extends MapOk wm where
  size : ((wm.map Prod.fst).map room).sum < W32
  word_size : ∀ w ∈ wm.map Prod.fst, w.length < W32
  last : ∀ w, (wm.map Prod.fst).getLast? = some w → w.length % 4 ≠ 0

/-- **C49** as stated. -/
def C49_statement : Prop :=
  ∀ (wm : StrMap) (G : RGlyphs) (s : List Nat), WordsOk wm → finishGlyphs [] wm = .ok G → (∀ c ∈ s, c ≠ 0) →
    wordIndexOf G s =
      .ok (if s ∈ wm.map Prod.fst then place (wm.map Prod.fst) s else noIndex)

/-- The only word is `ab`. -/
def onlyAb : StrMap := [([97, 98], 0)]

theorem onlyAb_ok : WordsOk onlyAb := by
  refine ⟨⟨by simp [onlyAb], by decide⟩, by decide, by decide, ?_⟩
  intro w hw
  simp [onlyAb] at hw
  subst hw
  decide

/-- It is false: `a` is found when `ab` is stored. -/
theorem C49_wrong_prefix : ¬ C49_statement := by
  intro h
  have e : finishGlyphs [] onlyAb = .ok ⟨[], [some 2, some 0, some 0, some 0, some 97, some 98, some 0, none], 2⟩ := by
    decide
  have := h onlyAb _ [97] onlyAb_ok e (by decide)
  revert this
  decide

/-- Nor is it only that: a longer string is compared with memory behind the buffer. -/
theorem C49_overrun :
    (do let G ← finishGlyphs [] onlyAb
        wordIndexOf G [98, 98, 98, 98, 98]) = .ub := by decide

/-- **C49**, what holds: the result is the place of the first stored word that begins with `s`, or `no_index` if
there is none. For this no stored word of 4, 8, … bytes may be a proper prefix of `s` (such words are not
terminated), and `s` must be stored or fit in the room of the greatest word. Missing: other strings; and the result
may be the place of a longer word. -/
theorem C49_search_partial (wm : StrMap) (h : WordsOk wm) (s : List Nat) (hs : ∀ c ∈ s, c ≠ 0)
    (h4 : ∀ w ∈ wm.map Prod.fst, w.length % 4 = 0 → w <+: s → s = w)
    (hlen : s ∈ wm.map Prod.fst ∨
      ∀ w, (wm.map Prod.fst).getLast? = some w → s.length ≤ 4 * ((w.length + 3) / 4)) :
    ∃ G, finishGlyphs [] wm = .ok G ∧
      wordIndexOf G s = .ok (match (wm.map Prod.fst).find? (fun w => decide (s <+: w)) with
        | none => noIndex
        | some w => place (wm.map Prod.fst) w) := by
  obtain ⟨b, e, hb⟩ := finishGlyphs_ok h.toMapOk h.size h.last [] (by simp)
  refine ⟨_, e, ?_⟩
  have := wordIndexLoop_ok (s := s) hs (wm.map Prod.fst) [] b [] 0 (((wm.map Prod.fst).map room).sum + 1) rfl hb
    h.sorted (by have := h.size; omega) (by have := length_le_room (wm.map Prod.fst); omega)
    (by
      intro w hw hw4
      by_cases hp : w <+: s
      · exact .inr (h4 w hw hw4 hp)
      · exact .inl hp)
    h.word_size hlen.symm
  rw [List.nil_append, Nat.zero_add, searchFrom_eq _ _ h.sorted.nodup] at this
  unfold wordIndexOf
  simp only [Nat.zero_add] at this
  exact this

/-- **C49** for stored words: the place of the word itself. -/
theorem C49_stored (wm : StrMap) (h : WordsOk wm) (s : List Nat) (hs : ∀ c ∈ s, c ≠ 0)
    (h4 : ∀ w ∈ wm.map Prod.fst, w.length % 4 = 0 → w <+: s → s = w) (hm : s ∈ wm.map Prod.fst) :
    ∃ G, finishGlyphs [] wm = .ok G ∧ wordIndexOf G s = .ok (place (wm.map Prod.fst) s) := by
  obtain ⟨G, e1, e2⟩ := C49_search_partial wm h s hs h4 (.inl hm)
  refine ⟨G, e1, ?_⟩
  rw [e2, find?_stored h.sorted hm]

/-- **C49** as stated, when `s` fits and no stored word is longer than `s` and begins with it. -/
theorem C49_exact_when (wm : StrMap) (h : WordsOk wm) (s : List Nat) (hs : ∀ c ∈ s, c ≠ 0)
    (h4 : ∀ w ∈ wm.map Prod.fst, w.length % 4 = 0 → w <+: s → s = w)
    (hlen : ∀ w, (wm.map Prod.fst).getLast? = some w → s.length ≤ 4 * ((w.length + 3) / 4))
    (hpre : ∀ w ∈ wm.map Prod.fst, s <+: w → s = w) :
    ∃ G, finishGlyphs [] wm = .ok G ∧
      wordIndexOf G s = .ok (if s ∈ wm.map Prod.fst then place (wm.map Prod.fst) s else noIndex) := by
  obtain ⟨G, e1, e2⟩ := C49_search_partial wm h s hs h4 (.inr hlen)
  refine ⟨G, e1, ?_⟩
  rw [e2]
  by_cases hm : s ∈ wm.map Prod.fst
  · rw [if_pos hm, find?_stored h.sorted hm]
  · rw [if_neg hm]
    have : (wm.map Prod.fst).find? (fun w => decide (s <+: w)) = none := by
      rw [List.find?_eq_none]
      intro w hw hd
      have := hpre w hw (by simpa using hd)
      subst this
      exact hm hw
    rw [this]

/-- `a`, `ab`, `b`: `ab` is found at its place; `ac` is not. -/
example : (do let G ← finishGlyphs [] [([97], 2), ([97, 98], 0), ([98], 1)]
              let i ← wordIndexOf G [97, 98]
              let j ← wordIndexOf G [97, 99]
              let w ← getWord G.buf i
              return (i, j, w)) = Res.ok (2, noIndex, [97, 98]) := by decide

end Ppocr.Props

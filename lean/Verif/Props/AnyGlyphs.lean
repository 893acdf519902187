import Verif.Props.AnyDatas
import Verif.Proofs.AnyGlyphs

/-! # Any glyph file (C114) -/

namespace Ppocr.Props
open Ppocr Spec

section
variable (P : Type) [ScoreDbl P]

/-- **C114**, full statement: a line that is read with one glyph file is read with any other text that the program takes as a glyph
file with as many glyphs, with as many letters. -/
def C114_statement (S : StdSort) : Prop :=
  ∀ (f : ProgFiles) (t : List Nat) (g g' : RGlyphs) (ans : Answer), f.infos = none → program P S f = .ok ans →
    loadGlyphs f.glyphs = .ok g → Utf8 t → loadGlyphs (some t) = .ok g' → g'.views.length = g.views.length →
    ∃ ans', program P S { f with glyphs := some t } = .ok ans' ∧ ans'.count = ans.count

end

/-! ### The full statement is false -/

/-- The two blocks of different width that `write_glyphs` learnt as `a` and `!`, read with another glyph file. -/
def anyGlyphsDemo (t : List Nat) (dict : Option TextFile) : Res Answer :=
  let g := writeGlyphs 128 [⟨ppm (spread [(0, 2), (1, 1)]), some (bytes "a !"), bytes "font"⟩]
  do
    let r ← writeDatas (some g.out)
    program Frac insertionSort ⟨some t, some r.2, ppm (spread [(0, 2), (1, 2), (1, 1)]), none, dict⟩

/-- A glyph without views is taken, and then the table of the glyphs with the same word is undefined. -/
theorem C114_no_view : anyGlyphsDemo (bytes "\n1\na f\n\n1\n! f\n") none = .ok ⟨bytes "aa!", 0, 3⟩ ∧
    anyGlyphsDemo (bytes "\n1\na f\n\n0\n") none = .ub ∧
    loadGlyphs (some (bytes "\n1\na f\n\n0\n")) = .ok ⟨[[⟨0, 0⟩], []], [some 1, some 0, some 0, some 0, some 97, some 0, none, none], 2⟩ := by
  refine ⟨by decide +kernel, by decide +kernel, by decide +kernel⟩

theorem C114_false : ¬ C114_statement Frac insertionSort := by
  intro h
  obtain ⟨h1, h2, h3⟩ := C114_no_view
  unfold anyGlyphsDemo at h1 h2
  simp only [] at h1 h2
  obtain ⟨r, hr, h1⟩ := Res.bind_eq_ok.1 h1
  rw [hr, Res.ok_bind] at h2
  obtain ⟨ans', e', _⟩ := h ⟨some (bytes "\n1\na f\n\n1\n! f\n"), some r.2, ppm (spread [(0, 2), (1, 2), (1, 1)]), none, none⟩
    (bytes "\n1\na f\n\n0\n") ⟨[[⟨2, 0⟩], [⟨0, 0⟩]], [some 1, some 0, some 0, some 0, some 33, some 0, none, none,
      some 1, some 0, some 0, some 0, some 97, some 0, none, none], 4⟩ _ _ rfl h1
      (show loadGlyphs (some (bytes "\n1\na f\n\n1\n! f\n")) = _ by decide +kernel)
      ⟨bytes "\n1\na f\n\n0\n", by decide +kernel, by decide +kernel⟩ h3 rfl
  have := h2.symm.trans e'
  cases this

/-- When the view of the last glyph is missing, or nothing follows its font, not even the end of the line, then the file is taken, and
the glyph gets the word that was read first; when there is no word at all, this is undefined. -/
theorem C114_missing_view : anyGlyphsDemo (bytes "\n1\na f\n\n1\n") none = .ok ⟨bytes "aaa", 0, 3⟩ ∧
    anyGlyphsDemo (bytes "\n1\na f\n\n1\n! f") none = .ok ⟨bytes "aaa", 0, 3⟩ ∧
    anyGlyphsDemo (bytes "\n1\na f\n\n1\n! f ") none = .ok ⟨bytes "aa!", 0, 3⟩ ∧
    loadGlyphs (some (bytes "\n1\n\n1\n")) = .ub := by
  refine ⟨by decide +kernel, by decide +kernel, by decide +kernel, by decide +kernel⟩

/-- Words that are not in UTF-8 can be read; but the search in a dictionary may run over their end. -/
theorem C114_latin1 : anyGlyphsDemo (bytes "\n1\n" ++ [0xE9] ++ bytes " f\n\n1\n! f\n") none = .ok ⟨[0xE9, 0xE9, 33], 0, 3⟩ ∧
    anyGlyphsDemo (bytes "\n1\n" ++ [0xE9] ++ bytes " f\n\n1\n! f\n") (some (some (bytes "15269888 0 0 1\n"))) = .ub ∧
    ¬ Utf8 (bytes "\n1\n" ++ [0xE9] ++ bytes " f\n\n1\n! f\n") := by
  refine ⟨by decide +kernel, by decide +kernel, fun h => ?_⟩
  have e : bytes "\n1\n" ++ [0xE9] ++ bytes " f\n\n1\n! f\n" = [10, 49, 10, 0xE9] ++ 32 :: bytes "f\n\n1\n! f\n" := by decide +kernel
  rw [e] at h
  obtain ⟨h, _⟩ := utf8_split (by decide) h
  obtain ⟨_, _, cs, hs, h⟩ := utf8_split (l := [10, 49]) (c := 10) (r := [0xE9]) (by decide) h
  cases cs with
  | nil => simp [encAll] at h
  | cons c cs =>
    rw [encAll_cons] at h
    have hb := enc_high (c := c)
    rcases enc_cases c with ⟨h1, h2⟩ | ⟨h1, h2, h3⟩ | ⟨h1, h2, h3⟩ | ⟨h1, h2⟩
    · rw [h2] at h
      simp only [List.cons_append, List.nil_append, List.cons.injEq] at h
      omega
    · rw [h3] at h
      simp at h
    · rw [h3] at h
      simp at h
    · rw [h2] at h
      simp at h

/-! ## What is true -/

/-- **C114**: whatever the text, loading it as a glyph file ends without an assertion; and the word of each view, as `get_word` gives
it, is a piece of the file without blanks. -/
theorem C114_load (t : List Nat) (ht : t.length < W32) :
    loadGlyphs (some t) = .ub ∨ loadGlyphs (some t) = .throw ∨
      ∃ g, loadGlyphs (some t) = .ok g ∧ ∀ vs ∈ g.views, ∀ v ∈ vs, ∃ w, getWord g.buf v.word = .ok w ∧
        w ≠ [] ∧ (∀ c ∈ w, isSpace c = false) ∧ w <:+: t ∧ (Utf8 t → Utf8 w) := by
  obtain ⟨gs, s, wm, h, e, hc⟩ := rglyphsRead_any ht
  unfold loadGlyphs openText
  simp only [Res.ok_bind]
  rw [e]
  rcases hc with ⟨_, _, hc⟩ | ⟨_, hg, hc⟩ | ⟨_, _, _, hc⟩ | ⟨us, b, hu, _, _, _, hc, hb⟩
  · rw [hc]
    exact .inl rfl
  · rw [hc]
    simp only [Res.ok_bind, Res.pure_eq]
    unfold checkEof
    split
    · refine .inr (.inr ⟨_, rfl, ?_⟩)
      intro vs hvs v hv
      rw [hg vs hvs] at hv
      simp at hv
    · exact .inr (.inl rfl)
  · rw [hc]
    exact .inl rfl
  · rw [hc]
    simp only [Res.ok_bind, Res.pure_eq]
    unfold checkEof
    split
    · refine .inr (.inr ⟨_, rfl, ?_⟩)
      intro vs hvs v hv
      obtain ⟨u, hu1, rfl⟩ := List.mem_map.1 hvs
      obtain ⟨p, hp, rfl⟩ := List.mem_map.1 hv
      have hm := hu u hu1 p hp
      obtain ⟨k1, k2, k3⟩ := h.words _ hm
      have hl := k2.length_le
      exact ⟨p.1, getWord_of (hb.holds hm).1 (by omega), k1.1, k1.2, k2, k3⟩
    · exact .inr (.inl rfl)

/-- **C114**, when loading is undefined: exactly when the file asks for views without having any word, or when the greatest of its
words has 4, 8, … bytes. -/
theorem C114_load_undefined (t : List Nat) (ht : t.length < W32) :
    ∃ (ws : List (List Nat)) (asked : Bool), (∀ w ∈ ws, w ≠ [] ∧ (∀ c ∈ w, isSpace c = false) ∧ w <:+: t) ∧
      ws.Pairwise (fun a b => wordLt a b = true) ∧
      (loadGlyphs (some t) = .ub ↔ (ws = [] ∧ asked = true) ∨ ∃ w, ws.getLast? = some w ∧ w.length % 4 = 0) ∧
      ∀ g, loadGlyphs (some t) = .ok g → (∀ vs ∈ g.views, ∀ v ∈ vs, ∃ w ∈ ws, getWord g.buf v.word = .ok w) ∧
        (asked = true ↔ ∃ vs ∈ g.views, vs ≠ []) := by
  obtain ⟨gs, s, wm, h, e, hc⟩ := rglyphsRead_any ht
  refine ⟨wm.map Prod.fst, gs.any fun l => !l.isEmpty, fun w hw => ⟨(h.words w hw).1.1, (h.words w hw).1.2, (h.words w hw).2.1⟩, h.ok.sorted, ?_⟩
  have hany : (gs.any fun l => !l.isEmpty) = true ↔ ∃ l ∈ gs, l ≠ [] := by simp
  rw [hany]
  unfold loadGlyphs openText
  simp only [Res.ok_bind]
  rw [e]
  rcases hc with ⟨hw, hg, hc⟩ | ⟨hw, hg, hc⟩ | ⟨w, hw, h4, hc⟩ | ⟨us, b, hu, hgs, _, ⟨w, hw, h4⟩, hc, hb⟩
  · rw [hc]
    refine ⟨⟨fun _ => .inl ⟨by simp [hw], hg⟩, fun _ => rfl⟩, fun g hg => by cases hg⟩
  · rw [hc]
    simp only [Res.ok_bind, Res.pure_eq]
    refine ⟨⟨fun hu => ?_, ?_⟩, fun g hg' => ?_⟩
    · unfold checkEof at hu
      split at hu <;> cases hu
    · rintro (⟨_, l, hl, hn⟩ | ⟨w, hl, _⟩)
      · exact absurd (hg l hl) hn
      · rw [hw] at hl
        simp at hl
    · obtain ⟨_, _, e3⟩ := Res.bind_eq_ok.1 hg'
      rw [Res.ok.injEq] at e3
      subst e3
      refine ⟨?_, Iff.rfl⟩
      intro vs hvs v hv
      rw [hg vs hvs] at hv
      simp at hv
  · rw [hc]
    refine ⟨⟨fun _ => .inr ⟨w, hw, h4⟩, fun _ => rfl⟩, fun g hg => by cases hg⟩
  · rw [hc]
    simp only [Res.ok_bind, Res.pure_eq]
    refine ⟨⟨fun hu => ?_, ?_⟩, fun g hg' => ?_⟩
    · unfold checkEof at hu
      split at hu <;> cases hu
    · rintro (⟨hn, _⟩ | ⟨w', hl, h'⟩)
      · rw [hn] at hw
        simp at hw
      · rw [hw, Option.some.injEq] at hl
        subst hl
        exact absurd h' h4
    · obtain ⟨_, _, e3⟩ := Res.bind_eq_ok.1 hg'
      rw [Res.ok.injEq] at e3
      subst e3
      refine ⟨?_, ?_⟩
      · intro vs hvs v hv
        obtain ⟨u, hu1, rfl⟩ := List.mem_map.1 hvs
        obtain ⟨p, hp, rfl⟩ := List.mem_map.1 hv
        have hm := hu u hu1 p hp
        have hl := (h.words _ hm).2.1.length_le
        exact ⟨p.1, hm, getWord_of (hb.holds hm).1 (by omega)⟩
      · rw [hgs]
        constructor
        · rintro ⟨l, hl, hn⟩
          obtain ⟨u, hu1, rfl⟩ := List.mem_map.1 hl
          exact ⟨_, List.mem_map_of_mem hu1, by simpa using hn⟩
        · rintro ⟨l, hl, hn⟩
          obtain ⟨u, hu1, rfl⟩ := List.mem_map.1 hl
          exact ⟨_, List.mem_map_of_mem hu1, by simpa using hn⟩

/-- **C114**: the words of a glyph file in UTF-8 of which none has 4, 8, … bytes are as the recogniser needs them, and each of them is
a piece of the file. -/
theorem C114_known (t : List Nat) (g : RGlyphs) (ht : t.length < W32) (hu : Utf8 t) (h : loadGlyphs (some t) = .ok g) (ho : OddSizes g) :
    ∃ W, AllKnown g W g.views ∧ ∀ vs ∈ g.views, ∀ v ∈ vs, encAll (W v.word) <:+: t := by
  have key : ∀ vs ∈ g.views, ∀ v ∈ vs, ∃ cs, (cs ≠ [] ∧ (∀ c ∈ cs, Scalar c) ∧ (encAll cs).length < W32 ∧ Holds g.buf v.word (encAll cs) ∧
      Terminated g.buf v.word (encAll cs)) ∧ encAll cs <:+: t := by
    obtain ⟨gs, s, wm, hr, e, hc⟩ := rglyphsRead_any ht
    unfold loadGlyphs openText at h
    simp only [Res.ok_bind] at h
    rw [e] at h
    rcases hc with ⟨_, _, hc⟩ | ⟨_, hg, hc⟩ | ⟨_, _, _, hc⟩ | ⟨us, b, hus, _, _, _, hc, hb⟩
    · rw [hc] at h
      cases h
    · rw [hc] at h
      obtain ⟨_, e1, h⟩ := Res.bind_eq_ok.1 h
      cases e1
      obtain ⟨_, _, h⟩ := Res.bind_eq_ok.1 h
      cases h
      intro vs hvs v hv
      rw [hg vs hvs] at hv
      simp at hv
    · rw [hc] at h
      cases h
    · rw [hc] at h
      obtain ⟨_, e1, h⟩ := Res.bind_eq_ok.1 h
      cases e1
      obtain ⟨_, _, h⟩ := Res.bind_eq_ok.1 h
      cases h
      intro vs hvs v hv
      have hodd := ho vs hvs v hv
      obtain ⟨u, hu1, rfl⟩ := List.mem_map.1 hvs
      obtain ⟨p, hp, rfl⟩ := List.mem_map.1 hv
      have hm := hus u hu1 p hp
      obtain ⟨k1, k2, k3⟩ := hr.words _ hm
      have hl := k2.length_le
      obtain ⟨hh, htm⟩ := hb.holds hm
      obtain ⟨cs, hs, hcs⟩ := k3 hu
      refine ⟨cs, ⟨?_, hs, by rw [hcs]; omega, by rw [hcs]; exact hh, ?_⟩, by rw [hcs]; exact k2⟩
      · rintro rfl
        exact k1.1 hcs.symm
      · rw [hcs]
        exact htm (hodd _ (wordSize_of hh (by omega)))
  have hW : ∃ W : Nat → List Nat, ∀ vs ∈ g.views, ∀ v ∈ vs, (W v.word ≠ [] ∧ (∀ c ∈ W v.word, Scalar c) ∧
      (encAll (W v.word)).length < W32 ∧ Holds g.buf v.word (encAll (W v.word)) ∧ Terminated g.buf v.word (encAll (W v.word))) ∧
      encAll (W v.word) <:+: t := by
    classical
    refine ⟨fun i => if h : ∃ cs, (cs ≠ [] ∧ (∀ c ∈ cs, Scalar c) ∧ (encAll cs).length < W32 ∧ Holds g.buf i (encAll cs) ∧
      Terminated g.buf i (encAll cs)) ∧ encAll cs <:+: t then h.choose else [], ?_⟩
    intro vs hvs v hv
    have := key vs hvs v hv
    simp only [dif_pos this]
    exact this.choose_spec
  obtain ⟨W, hW⟩ := hW
  refine ⟨W, ?_, fun vs hvs v hv => (hW vs hvs v hv).2⟩
  intro vs hvs v hv
  obtain ⟨⟨h1, h2, h3, h4, h5⟩, _⟩ := hW vs hvs v hv
  exact ⟨h1, h2, h3, h4, h5⟩

section
variable {P : Type} [ScoreDbl P]

/-- **C114**: what the program does with any glyph file in UTF-8 that it takes, if each glyph has a view and no word has 4, 8, … bytes, with
any features file that is whole and any dictionary that does not lead out of itself: all letters of the line are counted, and the text
is put together from pieces of the glyph file. The only other outcome is that of C62. Missing: other glyph files, as above. -/
theorem C114_program_partial (S : StdSort) (f : ProgFiles) (t : List Nat) (d : Datas) (g : RGlyphs) (infos : List WordInfo)
    (E : List FNode) (i : Image) (hf : f.glyphs = some t) (ht : t.length < W32) (hu : Utf8 t) (h1 : loadDatas f.datas = .ok d)
    (h2 : loadGlyphs (some t) = .ok g) (h3 : loadInfos S g f.infos = .ok infos) (h4 : loadDict f.dict = .ok E)
    (h5 : loadImage f.image 128 = .ok i) (hsize : g.views.length = d.size) (hwhole : Whole d) (hnw : NoWrap d) (hviews : [] ∉ g.views)
    (hfew : (g.views.map List.length).sum < W32) (ho : OddSizes g) (hin : StaysInside E)
    (hi : LineImage i) (hdiv : ∀ bs as, segment i = .ok bs → Pictures i bs as → ∀ a ∈ as, Divides d a) :
    ∃ bw bs, checkTables g.views d = .ok bw ∧ segment i = .ok bs ∧
      (¬ FirstHeld (setupOf S g.views d bw : Setup P) infos i → program P S f = .ub) ∧
      (FirstHeld (setupOf S g.views d bw : Setup P) infos i →
        ∃ (ws : List (List Nat)) (un : Nat) (lead : List (List (List Nat))) (segs : List (List (List (List Nat)))),
          (lead ++ segs.flatten).length = bs.length ∧ (∀ l ∈ lead ++ segs.flatten, ∀ w ∈ l, w ≠ [] ∧ encAll w <:+: t) ∧
          un = (segs.flatten.filter (· = [])).length ∧
          program P S f = .ok ⟨encAll (lead.flatMap firstOf ++ [32].intercalate (segs.map (segText ws))), un, bs.length⟩) := by
  obtain ⟨W, hk, hp⟩ := C114_known t g ht hu h2 ho
  obtain ⟨bw, bs, k1, k2, k3, k4⟩ := C113_program_partial (P := P) S f d g W infos E i h1 (by rw [hf]; exact h2) h3 h4 h5 hsize hwhole hnw
    hviews hfew hk hin hi hdiv
  refine ⟨bw, bs, k1, k2, k3, fun h => ?_⟩
  obtain ⟨ws, un, lead, segs, a1, a2, a3, a4⟩ := k4 h
  refine ⟨ws, un, lead, segs, a1, ?_, a3, a4⟩
  intro l hl w hw
  obtain ⟨vs, hvs, v, hv, rfl⟩ := a2 l hl w hw
  exact ⟨(hk vs hvs v hv).ne, hp vs hvs v hv⟩

/-- **C114** without a table of words and for small letters: whether the line is read depends on its picture only, and so does the number of its
letters. -/
theorem C114_picture_only_partial (S : StdSort) (f : ProgFiles) (t : List Nat) (d : Datas) (g : RGlyphs) (E : List FNode) (i : Image)
    (hf : f.glyphs = some t) (ht : t.length < W32) (hu : Utf8 t) (h1 : loadDatas f.datas = .ok d) (h2 : loadGlyphs (some t) = .ok g)
    (h3 : f.infos = none) (h4 : loadDict f.dict = .ok E) (h5 : loadImage f.image 128 = .ok i) (hsize : g.views.length = d.size)
    (hwhole : Whole d) (hnw : NoWrap d) (hviews : [] ∉ g.views) (hfew : (g.views.map List.length).sum < W32) (ho : OddSizes g)
    (hin : StaysInside E) (hi : LineImage i) (hsmall : ∀ bs, segment i = .ok bs → ∀ b ∈ bs, b.w + b.h ≤ 50) :
    (¬ LowLine i → program P S f = .ub) ∧
    (LowLine i → ∃ ans bs, program P S f = .ok ans ∧ segment i = .ok bs ∧ ans.count = bs.length ∧ ans.unrecognized ≤ bs.length) := by
  obtain ⟨W, hk, _⟩ := C114_known t g ht hu h2 ho
  exact C113_picture_only_partial S f d g W E i h1 (by rw [hf]; exact h2) h3 h4 h5 hsize hwhole hnw hviews hfew hk hin hi hsmall

end

/-- A word may stand behind the number of views, and its font on the next line. -/
example : loadGlyphs (some (bytes "any\n2ab\nf\n1 2 3 4\n")) = loadGlyphs (some (bytes "2 2 xxxx\n2\nab f 0\n1 2 0\n")) ∧
    anyGlyphsDemo (bytes "any\n1ab\nf\nhead\n +1 c d\n") none = .ok ⟨bytes "ababc", 0, 3⟩ ∧
    anyGlyphsDemo (bytes "any\n1ab\nf\nhead\n +1 c d\n\n.") none = .throw := by
  refine ⟨by decide +kernel, by decide +kernel, by decide +kernel⟩

end Ppocr.Props

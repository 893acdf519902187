import Verif.Proofs.WordLines
import Verif.Props.Glyphs

/-! # C50, C57: the positions of words on the line -/

namespace Ppocr.Props
open Ppocr Spec

/-! ## C57 -/

/-- **C57**: on every text the reader ends; it appends, in order, what is to be kept of the entries up to the first
place where there is none (`Entries`, which such a list always satisfies). -/
theorem C57_reader (t : List Nat) (old : List WWordLines) :
    (∃ es, Entries t es) ∧ ∀ es, Entries t es →
      ∃ s, wwordsRead (IS.of t) old = .ok (old ++ keep es, s) ∧ s.fail = true := by
  refine ⟨entries_exists t.length t (Nat.le_refl _), ?_⟩
  intro es he
  exact wwordsLoop_ok (t.length + 1) (IS.of t) old es ⟨rfl, rfl, by simp [IS.of]⟩ (by simp [IS.of]) he

/-- So the kept entries depend on the text only. -/
theorem C57_unique (t : List Nat) (es es' : List Entry) (h : Entries t es) (h' : Entries t es') :
    keep es = keep es' := by
  obtain ⟨s, e, _⟩ := (C57_reader t []).2 es h
  obtain ⟨s', e', _⟩ := (C57_reader t []).2 es' h'
  rw [e] at e'
  injection e' with e'
  injection e' with e' _

/-- Numbers modulo 8; a word of 9 bytes is dropped; `c` has no four numbers. -/
example : (do let r ← wwordsRead (IS.of (bytes "a 1 2 4 9\nlongword9 0 0 0 0\n é -1 0+2 3\nc 1 x 2 3\nd 0 0 0 0\n")) []
              return r.1) =
    Res.ok [⟨[97], ⟨1, 2, 4, 1⟩⟩, ⟨[0xC3, 0xA9], ⟨7, 0, 2, 3⟩⟩] := by decide +kernel

/-- An entry as the specification sees it. -/
example : HasEntry (bytes " ab 1 +2\n4 -1") ⟨[97, 98], 1, 2, 4, 4294967295⟩ [] := by
  refine ⟨bytes " 1 +2\n4 -1", bytes " +2\n4 -1", bytes "\n4 -1", bytes " -1", ?_, ?_, ?_, ?_, ?_⟩
  · exact ⟨[32], by decide +kernel, by simp [Blank], by simp, by simp [Blank], by
      have : bytes " 1 +2\n4 -1" = 32 :: bytes "1 +2\n4 -1" := by decide +kernel
      rw [this]
      intro c u h
      injection h with h _
      exact .inl h.symm⟩
  · refine ⟨[32], [], [49], by decide +kernel, by simp [Blank], by simp, by simp, by simp [Digit], ?_, by decide, rfl⟩
    have : bytes " +2\n4 -1" = 32 :: bytes "+2\n4 -1" := by decide +kernel
    rw [this]
    intro c u h
    injection h with h _
    subst h
    simp [Digit]
  · refine ⟨[32], [43], [50], by decide +kernel, by simp [Blank], by simp, by simp, by simp [Digit], ?_, by decide, rfl⟩
    have : bytes "\n4 -1" = 10 :: bytes "4 -1" := by decide +kernel
    rw [this]
    intro c u h
    injection h with h _
    subst h
    simp [Digit]
  · refine ⟨[10], [], [52], by decide +kernel, by simp [Blank], by simp, by simp, by simp [Digit], ?_, by decide, rfl⟩
    have : bytes " -1" = 32 :: bytes "-1" := by decide +kernel
    rw [this]
    intro c u h
    injection h with h _
    subst h
    simp [Digit]
  · exact ⟨[32], [45], [49], by decide +kernel, by simp [Blank], by simp, by simp, by simp [Digit], by simp, by decide, rfl⟩

/-! ## C50 -/

/-- **C50**: whatever the glyphs, the lines and the sorting algorithm, once the table is built `get(w)` gives an
entry registered for `w`, and none exactly when none is registered for `w`. -/
theorem C50_get (S : StdSort) (g : RGlyphs) (ls : List WWordLines) (infos : List WordInfo)
    (h : wordsInfos S g ls = .ok infos) (w : Nat) :
    ∃ r, infosGet infos w = .ok r ∧ (∀ e, r = some e → Registered g ls e ∧ e.word = w) ∧
      (r = none → ∀ e, Registered g ls e → e.word ≠ w) := by
  obtain ⟨hs, hm⟩ := wordsInfos_sorted h
  refine ⟨_, infosGet_ok infos w hs, ?_, ?_⟩
  · intro e he
    unfold lookup at he
    have h1 := List.mem_of_find?_eq_some he
    have h2 := List.find?_some he
    exact ⟨(hm e).1 h1, by simpa using h2⟩
  · intro hn e he hw
    unfold lookup at hn
    rw [List.find?_eq_none] at hn
    exact hn e ((hm e).2 he) (by simpa using hw)

/-- The words of the lines can be searched: see C49. -/
structure Searchable (wm : StrMap) (s : List Nat) : Prop where
  nul : ∀ c ∈ s, c ≠ 0
  four : ∀ w ∈ wm.map Prod.fst, w.length % 4 = 0 → w <+: s → s = w
  len : ∀ w, (wm.map Prod.fst).getLast? = some w → s.length ≤ 4 * ((w.length + 3) / 4)
  ext : ∀ w ∈ wm.map Prod.fst, s <+: w → s = w

/-- `infosLoop` ends when every search does. -/
theorem infosLoop_total {g : RGlyphs} : ∀ ls : List WWordLines, (∀ p ∈ ls, ∃ i, wordIndexOf g p.str = .ok i) →
    ∃ l, infosLoop g ls = .ok l
  | [], _ => ⟨[], rfl⟩
  | p :: ps, h => by
    obtain ⟨i, hi⟩ := h p (by simp)
    obtain ⟨l, hl⟩ := infosLoop_total ps fun q hq => h q (by simp [hq])
    exact ⟨_, by rw [infosLoop, hi, Res.ok_bind, hl, Res.ok_bind, Res.pure_eq]⟩

/-- With the words of a glyph file, for lines whose words can be searched (C49), the table is built and the lookup of
a word of the file gives the positions of one of its lines, and nothing exactly when it has no line. -/
theorem C50_words (S : StdSort) (wm : StrMap) (h : WordsOk wm) (ls : List WWordLines)
    (hl : ∀ p ∈ ls, Searchable wm p.str) :
    ∃ g infos, finishGlyphs [] wm = .ok g ∧ wordsInfos S g ls = .ok infos ∧ ∀ s ∈ wm.map Prod.fst,
      ∃ r, infosGet infos (place (wm.map Prod.fst) s) = .ok r ∧
        (∀ e, r = some e → ∃ p ∈ ls, p.str = s ∧ e = ⟨place (wm.map Prod.fst) s, p.lines⟩) ∧
        (r = none → ∀ p ∈ ls, p.str ≠ s) := by
  obtain ⟨b, eg, _⟩ := finishGlyphs_ok h.toMapOk h.size h.last [] (by simp)
  rw [List.map_nil] at eg
  generalize hg : RGlyphs.mk _ _ _ = g at eg
  have hidx : ∀ p ∈ ls, wordIndexOf g p.str =
      .ok (if p.str ∈ wm.map Prod.fst then place (wm.map Prod.fst) p.str else noIndex) := by
    intro p hp
    obtain ⟨G, e1, e2⟩ := C49_exact_when wm h p.str (hl p hp).nul (hl p hp).four (hl p hp).len (hl p hp).ext
    rw [eg] at e1
    injection e1 with e1
    rw [← e1] at e2
    exact e2
  obtain ⟨l, hlo⟩ := infosLoop_total ls fun p hp => ⟨_, hidx p hp⟩
  have hw : wordsInfos S g ls = .ok (S.sort (fun a b => decide (a.word < b.word)) l) := by
    unfold wordsInfos
    rw [hlo, Res.ok_bind, Res.pure_eq]
  refine ⟨_, _, eg, hw, ?_⟩
  intro s hs
  have hplace := place_lt hs
  have hsz := h.size
  obtain ⟨r, er, h1, h2⟩ := C50_get S g ls _ hw (place (wm.map Prod.fst) s)
  have hno : place (wm.map Prod.fst) s ≠ noIndex := by
    unfold noIndex
    have : 0 < room s := by unfold room; omega
    omega
  refine ⟨r, er, ?_, ?_⟩
  · intro e he
    obtain ⟨⟨hn, p, hp, e1, e2⟩, e3⟩ := h1 e he
    rw [hidx p hp] at e1
    injection e1 with e1
    by_cases hpm : p.str ∈ wm.map Prod.fst
    · rw [if_pos hpm, e3] at e1
      refine ⟨p, hp, place_inj hpm hs e1, ?_⟩
      cases e
      simp only at e2 e3
      rw [e2, e3]
    · rw [if_neg hpm] at e1
      exact absurd e1.symm hn
  · intro hr p hp hps
    refine h2 hr ⟨place (wm.map Prod.fst) s, p.lines⟩ ⟨hno, p, hp, ?_, rfl⟩ rfl
    rw [hidx p hp, if_pos (by rw [hps]; exact hs), hps]

/-- `b` twice, then `a`, then an unknown word: `get` on the numbers of `a`, `b`, and on another number. -/
example : (do let g ← finishGlyphs [] [([97], 0), ([98], 1)]
              let infos ← wordsInfos insertionSort g
                [⟨[98], ⟨1, 2, 3, 4⟩⟩, ⟨[98], ⟨5, 0, 0, 0⟩⟩, ⟨[97], ⟨0, 0, 0, 1⟩⟩, ⟨[99], ⟨7, 7, 7, 7⟩⟩]
              let x ← infosGet infos 0
              let y ← infosGet infos 2
              let z ← infosGet infos 1
              return (x, y, z)) =
    Res.ok (some ⟨0, ⟨0, 0, 0, 1⟩⟩, some ⟨2, ⟨1, 2, 3, 4⟩⟩, none) := by decide

end Ppocr.Props

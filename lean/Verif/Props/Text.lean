import Verif.Proofs.Text
import Verif.Props.Glyphs

/-! # C44: the text of a line -/

namespace Ppocr.Props
open Ppocr Spec

/-- The positions of the spaces as the program makes them (`main/ocr2_extract_text.cpp` L124-126, L173): increasing, the
last is the number of letters; the first may be 0, for a space before the first letter. -/
structure Spaces (n : Nat) (sp : List Nat) : Prop where
  incr : sp.Pairwise (· < ·)
  last : sp.getLast? = some n

/-- **C44** as stated: the words of the letters as in the dictionary, else the first candidates, `?` for each letter
without candidates, a space at each inner boundary; and the number of letters without candidates. -/
def C44_statement : Prop :=
  ∀ (S : StdSort) (ws : List (List Nat)) (E : List FNode) (g : RGlyphs) (W : Nat → List Nat) (amb : List (List View))
    (spaces : List Nat), DictOf S ws E → AllKnown g W amb → Spaces amb.length spaces → amb.length < W32 →
    disambiguousWithDict g E amb spaces =
      .ok (encAll (lineText ws (amb.map (wordsAt W)) (spaces.filter (0 < ·))), (amb.filter (· = [])).length)

/-- It is false: a letter that is not recognised at the start of the line is not shown and not counted. -/
theorem C44_wrong_first : ¬ C44_statement := by
  intro h
  have := h insertionSort [] [] ⟨[], [], 0⟩ (fun _ => []) [[]] [1] ⟨by simp, by simp, by decide, by decide⟩
    (by intro l hl v hv; simp at hl; subst hl; simp at hv) ⟨by simp, by simp⟩ (by decide)
  revert this
  simp [disambiguousWithDict, findFirst, searchFn, appendFirsts, textLoop]

/-- `!` and `a` in memory. -/
def markA : RGlyphs := ⟨[], [some 1, some 0, some 0, some 0, some 33, some 0, none, none, some 1, some 0, some 0, some 0,
  some 97, some 0, none, none], 4⟩

/-- The space behind a first word of punctuation is lost: `! a` becomes `!a`. -/
theorem C44_lost_space : disambiguousWithDict markA [] [[⟨0, 0⟩], [⟨2, 0⟩]] [1, 2] = .ok ([33, 97], 0) ∧
    disambiguousWithDict markA [] [[⟨0, 0⟩], [⟨2, 0⟩]] [0, 1, 2] = .ok ([33, 32, 97], 0) := by decide

theorem blanks_filter (W : Nat → List Nat) (amb : List (List View)) :
    blanks (amb.map (wordsAt W)) = (amb.filter (· = [])).length := by
  unfold blanks
  rw [List.countP_map, List.countP_eq_length_filter]
  congr 2
  funext l
  simp [wordsAt]

/-- The text of a line, for every dictionary that is searched as a list of words. -/
theorem lineText_searched (ws : List (List Nat)) (E : List FNode) (g : RGlyphs) (W : Nat → List Nat) (A : List (List Nat))
    (amb : List (List View)) (e : Nat) (rest : List Nat) (hd : SearchesOn E ws A amb.length) (hA : Among W A amb) (hk : AllKnown g W amb)
    (hs : Spaces amb.length (e :: rest)) (hn : amb.length < W32) :
    ∃ lead, lead = ((amb.map (wordsAt W)).take e).takeWhile isSep ∧
      disambiguousWithDict g E amb (e :: rest) =
        .ok (encAll (lead.flatMap firstOf ++
            [32].intercalate ((segments (amb.map (wordsAt W)) lead.length
              (if lead.length = e then rest else e :: rest)).map (segText ws))),
          ((amb.drop lead.length).filter (· = [])).length) := by
  refine ⟨_, rfl, ?_⟩
  obtain ⟨n, hnd⟩ : ∃ n, n = (((amb.map (wordsAt W)).take e).takeWhile isSep).length := ⟨_, rfl⟩
  have hmem : amb.length ∈ e :: rest := List.mem_of_getLast? hs.last
  have hinc := List.pairwise_cons.1 hs.incr
  have hel : e ≤ amb.length := by
    rcases List.mem_cons.1 hmem with h | h
    · omega
    · exact Nat.le_of_lt (hinc.1 _ h)
  have hne : n ≤ e := by
    rw [hnd]
    have := (List.takeWhile_sublist (l := (amb.map (wordsAt W)).take e) isSep).length_le
    rw [List.length_take] at this
    omega
  have hf : findFirst g false (amb.take e) = .ok n := by
    rw [findFirst_ok (W := W) false fun l hl => hk l (List.mem_of_mem_take hl), hnd, ← List.map_take,
      List.takeWhile_map, List.length_map]
    congr 3
    funext l
    simp
  have hlead : ((amb.map (wordsAt W)).take e).takeWhile isSep = (amb.take n).map (wordsAt W) := by
    rw [← take_takeWhile, ← hnd, List.take_take, Nat.min_eq_left hne, List.map_take]
  unfold disambiguousWithDict
  simp only []
  rw [if_neg (by omega), hf, Res.ok_bind, appendFirsts_ok [] (fun l hl => hk l (List.mem_of_mem_take hl)), Res.ok_bind,
    textLoop_ok hd hA hk _ _ _ _ 0 (by omega) ?_ ?_ W32_pos, ← hnd, joinText_eq, hlead, encAll_append]
  · simp only [Res.ok.injEq, Prod.mk.injEq, List.nil_append, true_and, Nat.zero_add]
    rw [← List.map_drop, blanks_filter]
    apply Nat.mod_eq_of_lt
    have h1 := List.length_filter_le (fun l : List View => decide (l = [])) (amb.drop n)
    rw [List.length_drop] at h1
    omega
  · by_cases h : n = e
    · rw [if_pos h, h]; exact hs.incr
    · rw [if_neg h, List.pairwise_cons]
      refine ⟨?_, hs.incr⟩
      intro x hx
      rcases List.mem_cons.1 hx with rfl | hx
      · omega
      · have := hinc.1 x hx
        omega
  · by_cases h : n = e
    · rw [if_pos h, h]; exact hs.last
    · rw [if_neg h, List.getLast?_cons_cons]; exact hs.last

/-- What the program does on every line: the first word loses its leading letters that are not recognised, and the space
behind it when it has no other letters than punctuation and letters not recognised; the rest is as stated. In particular
it ends and stays within its memory. -/
theorem C44_exact (S : StdSort) (ws : List (List Nat)) (E : List FNode) (g : RGlyphs) (W : Nat → List Nat)
    (amb : List (List View)) (e : Nat) (rest : List Nat) (hd : DictOf S ws E) (hk : AllKnown g W amb)
    (hs : Spaces amb.length (e :: rest)) (hn : amb.length < W32) :
    ∃ lead, lead = ((amb.map (wordsAt W)).take e).takeWhile isSep ∧
      disambiguousWithDict g E amb (e :: rest) =
        .ok (encAll (lead.flatMap firstOf ++
            [32].intercalate ((segments (amb.map (wordsAt W)) lead.length
              (if lead.length = e then rest else e :: rest)).map (segText ws))),
          ((amb.drop lead.length).filter (· = [])).length) :=
  lineText_searched ws E g W (amb.flatMap fun l => l.map fun v => W v.word) amb e rest (hd.searches _ _)
    (fun l hl v hv => List.mem_flatMap.2 ⟨l, hl, List.mem_map.2 ⟨v, hv, rfl⟩⟩) hk hs hn

/-- **C44**, what holds: the full statement when the line starts with a space, or with a letter that is recognised and
not punctuation. Missing: the other lines, see `C44_exact`. -/
theorem C44_text_partial (S : StdSort) (ws : List (List Nat)) (E : List FNode) (g : RGlyphs) (W : Nat → List Nat)
    (amb : List (List View)) (spaces : List Nat) (hd : DictOf S ws E) (hk : AllKnown g W amb)
    (hs : Spaces amb.length spaces) (hn : amb.length < W32)
    (h : spaces.head? = some 0 ∨ ∀ l, amb.head? = some l → isSep (wordsAt W l) = false) :
    disambiguousWithDict g E amb spaces =
      .ok (encAll (lineText ws (amb.map (wordsAt W)) (spaces.filter (0 < ·))), (amb.filter (· = [])).length) := by
  cases spaces with
  | nil => have := hs.last; simp at this
  | cons e rest =>
    obtain ⟨lead, hl, he⟩ := C44_exact S ws E g W amb e rest hd hk hs hn
    have hz : lead = [] := by
      rw [hl]
      rcases h with h | h
      · simp only [List.head?_cons, Option.some.injEq] at h
        subst h; rfl
      · cases amb with
        | nil => simp
        | cons l ls =>
          cases e with
          | zero => rfl
          | succ e =>
            rw [List.map_cons, List.take_succ_cons, List.takeWhile_cons_of_neg (by rw [h l rfl]; simp)]
    subst hz
    rw [he]
    have hf : (e :: rest).filter (0 < ·) = if 0 = e then rest else e :: rest := by
      have hinc := List.pairwise_cons.1 hs.incr
      have hr : rest.filter (0 < ·) = rest := by
        rw [List.filter_eq_self]
        intro x hx
        have := hinc.1 x hx
        simp; omega
      by_cases h0 : 0 = e
      · subst h0
        rw [if_pos rfl, List.filter_cons_of_neg (by simp), hr]
      · rw [if_neg h0, List.filter_cons_of_pos (by simp; omega), hr]
    rw [hf]
    simp [lineText]

/-- The words of a glyph file whose sizes are no multiples of 4 (see C48) are known as C44 needs it. -/
theorem C44_words (wm : StrMap) (h : WordsOk wm)
    (cs : List (List Nat)) (hcs : wm.map Prod.fst = cs.map encAll) (hne : ∀ c ∈ cs, c ≠ [] ∧ ∀ x ∈ c, Scalar x)
    (h4 : ∀ w ∈ wm.map Prod.fst, w.length % 4 ≠ 0) :
    ∃ G W, finishGlyphs [] wm = .ok G ∧ ∀ w ∈ wm.map Prod.fst,
      Known G W (place (wm.map Prod.fst) w) ∧ encAll (W (place (wm.map Prod.fst) w)) = w := by
  obtain ⟨b, e, hb⟩ := finishGlyphs_ok h.toMapOk h.size h.last [] (by simp)
  refine ⟨_, fun i => (cs.find? fun c => decide (place (wm.map Prod.fst) (encAll c) = i)).getD [], e, ?_⟩
  intro w hw
  obtain ⟨c, hc, hcw⟩ := List.mem_map.1 (hcs ▸ hw)
  have hsome : (cs.find? fun c => decide (place (wm.map Prod.fst) (encAll c) = place (wm.map Prod.fst) w)).isSome := by
    rw [List.find?_isSome]
    exact ⟨c, hc, by rw [hcw]; simp⟩
  obtain ⟨d, hd⟩ := Option.isSome_iff_exists.1 hsome
  have hdm := List.mem_of_find?_eq_some hd
  have hdp := List.find?_some hd
  simp only [decide_eq_true_eq] at hdp
  have hdw : encAll d = w := place_inj (by rw [hcs]; exact List.mem_map_of_mem hdm) hw hdp
  have hW : ((cs.find? fun c => decide (place (wm.map Prod.fst) (encAll c) = place (wm.map Prod.fst) w)).getD []) = d := by
    rw [hd]; rfl
  have hh := hb.holds hw
  refine ⟨⟨?_, ?_, ?_, ?_, ?_⟩, ?_⟩
  · rw [hW]; exact (hne d hdm).1
  · rw [hW]; exact (hne d hdm).2
  · rw [hW, hdw]; exact h.word_size w hw
  · simp only []; rw [hW, hdw]; exact hh.1
  · simp only []; rw [hW, hdw]; exact hh.2 (h4 w hw)
  · simp only []; rw [hW, hdw]

/-- `1`, `é`, `l`, `.` in memory, at 0, 6, 2, 4 (in the order of their bytes `.` would be the first). -/
def fourWords : RGlyphs := ⟨[], [some 1, some 0, some 0, some 0, some 49, some 0, none, none,
  some 1, some 0, some 0, some 0, some 108, some 0, none, none,
  some 1, some 0, some 0, some 0, some 46, some 0, none, none,
  some 2, some 0, some 0, some 0, some 0xC3, some 0xA9, some 0, none], 8⟩

/-- Letters `1|l`, `é`, `.`, none, `1|l`, with `lé` in the dictionary and a space before the last: `lé.? 1`. -/
example : (do
    let E ← dictOf insertionSort [[108, 0xC3, 0xA9]]
    disambiguousWithDict fourWords E
      [[⟨0, 0⟩, ⟨0, 1⟩, ⟨2, 0⟩], [⟨6, 0⟩], [⟨4, 0⟩, ⟨2, 0⟩], [], [⟨0, 0⟩, ⟨2, 0⟩]] [4, 5]) =
    .ok ([108, 0xC3, 0xA9, 46, 63, 32, 49], 1) := by decide

/-- The statement promises `! a` where the program gives `!a`. -/
example : lineText [] [[[33]], [[97]]] [1, 2] = [33, 32, 97] := by
  have h : isSep [[33]] = true := by decide
  have h' : isSep [[97]] = false := by decide
  have h2 : runText [] [[[97]]] = [97] := by decide
  simp [lineText, segments, segText, h, h', h2, List.intercalate, sepText, firstOf]

end Ppocr.Props

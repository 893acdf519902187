import Verif.Proofs.DictIO
import Verif.Props.Spell

/-! # C42, C58: dictionary files -/

namespace Ppocr.Props
open Ppocr Spec

/-! ## C42 -/

/-- **C42**: a written dictionary is read back with the same nodes, whatever the target held and whatever the
`skipws` flag of the stream, which is the same afterwards. No exception is thrown, and the stream is at its end.
`fits` says that the numbers of the nodes are `unsigned`. -/
theorem C42_round_trip (E old : List FNode) (ws : Bool) (h : ∀ f ∈ E, f.fits) :
    dictRead ⟨dictWrite E, false, false, ws⟩ old = .ok ⟨false, E, ⟨[], true, true, ws⟩⟩ := by
  have := dictRead_append h [] ws old (r := (.nodes E, ⟨[], true, true, false⟩)) rfl
  rw [List.append_nil] at this
  exact this

/-- **C42**, for every input: reading ends normally or by the exception, never otherwise; the `skipws` flag is
restored in both cases, and the target only changes in the first. -/
theorem C42_total (s : IS) (old : List FNode) :
    ∃ r, dictRead s old = .ok r ∧ r.stream.ws = s.ws ∧ (r.threw = true → r.dict = old) := by
  obtain ⟨r, hr⟩ := dictLoop_total (s.rest.length + 1) { s with ws := false } [] (by simp)
  unfold dictRead
  rw [hr _ (Nat.le_refl _)]
  refine ⟨_, rfl, ?_, ?_⟩
  · cases r.1 <;> rfl
  · cases r.1 <;> simp [DictEnd.finish]

/-- A file that goes on with something that is not a number is silently cut there: the nodes before it make the
dictionary. -/
theorem C42_cut (E old : List FNode) (ws : Bool) (h : ∀ f ∈ E, f.fits) (c : Nat) (g : List Nat)
    (hc : isDec c = false) (hs : c ≠ 45 ∧ c ≠ 43) :
    ∃ s, dictRead ⟨dictWrite E ++ c :: g, false, false, ws⟩ old = .ok ⟨false, E, s⟩ := by
  have hf : (nodeRead ⟨c :: g, false, false, false⟩).2.fail = true := by
    have e : IS.uint (W32 - 1) ⟨c :: g, false, false, false⟩ 0 = (0, ⟨c :: g, false, true, false⟩) := by
      simp [IS.uint, IS.sentry, IS.good, parseSign, hs.1, hs.2, hc]
    unfold nodeRead
    rw [e]
    rfl
  have := dictRead_append h (c :: g) ws old (r := (.nodes E, _)) (by
    unfold dictLoop
    simp only []
    rw [if_pos hf])
  exact ⟨_, this⟩

/-- The dictionary `{1, 12, 3}` of C41. -/
example : dictWrite [⟨1, 2, 1, true⟩, ⟨3, 2, 0, true⟩, ⟨2, 1, 0, true⟩] =
      "1 2 1 1\n3 2 0 1\n2 1 0 1\n".toList.map Char.toNat ∧
    dictRead (IS.of ("1 2 1 1\n3 2 0 1\n2 1 0 1\n".toList.map Char.toNat)) [⟨7, 7, 7, true⟩] =
      .ok ⟨false, [⟨1, 2, 1, true⟩, ⟨3, 2, 0, true⟩, ⟨2, 1, 0, true⟩], ⟨[], true, true, true⟩⟩ := by decide

/-- A tabulation throws and leaves the target; a letter in place of a number cuts the dictionary. -/
example : (do let r ← dictRead (IS.of ("1 2 1\t1\n".toList.map Char.toNat)) [⟨7, 7, 7, true⟩]
              return (r.threw, r.dict)) = Res.ok (true, [⟨7, 7, 7, true⟩]) ∧
    (do let r ← dictRead (IS.of ("1 1 0 1\n3 x 0 1\n".toList.map Char.toNat)) [⟨7, 7, 7, true⟩]
        return (r.threw, r.dict)) = Res.ok (false, [⟨1, 1, 0, true⟩]) := by decide

/-! ## C58 -/

/-- A line holds a word: its characters, none of them a newline. -/
def Line (w : List Nat) : Prop := ∀ c ∈ w, Scalar c ∧ c ≠ 10

theorem line_nl {w : List Nat} (h : Line w) : 10 ∉ encAll w := by
  intro hm
  simp only [encAll, List.mem_flatMap] at hm
  obtain ⟨c, hc, hm⟩ := hm
  obtain ⟨h1, h2⟩ := h c hc
  unfold Scalar at h1
  unfold enc at hm
  split at hm
  · simp at hm; omega
  · split at hm
    · simp at hm; omega
    · split at hm <;> (simp at hm; omega)

theorem encAll_ne {w : List Nat} (h : w ≠ []) : encAll w ≠ [] := by
  cases w with
  | nil => exact absurd rfl h
  | cons c w =>
    simp only [encAll, List.flatMap_cons]
    intro he
    have := (List.append_eq_nil_iff.1 he).1
    unfold enc at this
    repeat' split at this
    all_goals simp at this

/-- A file of words, one per line. -/
def wordFile (ws : List (List Nat)) : List Nat := joinLines (ws.map encAll)

/-- A dictionary is compiled to a file, and the file loaded. -/
def compileAndLoad (S : StdSort) (args : List (Option (List Nat))) (old : List FNode) : Res DictRead := do
  let text ← makeTrie S args
  dictRead (IS.of text) old

/-- **C58** as stated: for every word list, given in any number of files, the loaded dictionary accepts exactly
its words. -/
def C58_statement : Prop :=
  ∀ (S : StdSort) (files : List (List (List Nat))) (old : List FNode),
    (∀ ws ∈ files, ∀ w ∈ ws, Line w) → (files.flatten.map List.length).sum < W32 →
    ∃ E st, compileAndLoad S (files.map fun ws => some (wordFile ws)) old = .ok ⟨false, E, st⟩ ∧
      ∀ w out, w ≠ [] → (∀ c ∈ w, Scalar c) →
        disambiguous E (w.map fun c => [enc c ++ [0]]) out =
          .ok (if w ∈ files.flatten then (true, out ++ encAll w) else (false, out))

/-- Once a file is open, the others are ignored. -/
theorem wordsLoop_open (as : List (Option (List Nat))) : wordsLoop as true = .ok [] := by
  induction as with
  | nil => rfl
  | cons a as ih => cases a <;> exact ih

/-- It is false: only the first file is read, so with `a` in one file and `b` in another `b` is unknown. -/
theorem C58_wrong_files : ¬ C58_statement := by
  intro h
  obtain ⟨E, st, e1, e2⟩ := h insertionSort [[[97]], [[98]]] [] (by unfold Line; decide) (by decide)
  have e : compileAndLoad insertionSort ([[[97]], [[98]]].map fun ws => some (wordFile ws)) [] =
      .ok ⟨false, [⟨97, 1, 0, true⟩], ⟨[], true, true, true⟩⟩ := by decide
  rw [e] at e1
  injection e1 with e1
  injection e1 with _ e1 _
  subst e1
  have := e2 [98] [] (by simp) (by decide)
  revert this
  decide

/-- Nor does it hold for one file: an empty line makes the program read behind the end of an empty vector. -/
theorem C58_blank_line (S : StdSort) (ws : List (List Nat)) (h : ∀ w ∈ ws, Line w) (he : [] ∈ ws)
    (args : List (Option (List Nat))) :
    makeTrie S (some (wordFile ws) :: args) = .ub := by
  have hf := fileLines_ok (ws.map encAll) [] (by
    intro l hl
    obtain ⟨w, hw, rfl⟩ := List.mem_map.1 hl
    exact line_nl (h w hw)) (by simp)
  rw [List.append_nil, if_pos rfl, List.append_nil] at hf
  unfold makeTrie wordsLoop wordFile
  rw [hf, wordsLoop_open]
  simp only [Res.ok_bind, Res.pure_eq, List.append_nil]
  rw [C40_empty_word S ws (fun w hw c hc => (h w hw c hc).1) he, Res.ub_bind]

/-- **C58**, what holds: the words, one per line and none empty, are taken from the first file that can be
opened; the last line may lack its newline. The compiled file is loaded, without exception, as the dictionary of
exactly these words; asked for a word letter by letter, it accepts exactly these. Missing: the words of the other
files, which the program ignores, and files with empty lines. -/
theorem C58_compile_partial (S : StdSort) (ws : List (List Nat)) (last : List Nat) (k : Nat)
    (args : List (Option (List Nat))) (old : List FNode) (hne : ∀ w ∈ ws, w ≠ []) (hl : ∀ w ∈ ws, Line w)
    (hl' : Line last) (hsz : (ws.map List.length).sum + last.length < W32) :
    let all := ws ++ if last = [] then [] else [last]
    ∃ E, compileAndLoad S (List.replicate k none ++ some (wordFile ws ++ encAll last) :: args) old =
        .ok ⟨false, E, ⟨[], true, true, true⟩⟩ ∧
      dictOf S (all.map encAll) = .ok E ∧
      ∀ w out, w ≠ [] → (∀ c ∈ w, Scalar c) →
        disambiguous E (w.map fun c => [enc c ++ [0]]) out =
          .ok (if w ∈ all then (true, out ++ encAll w) else (false, out)) := by
  intro all
  have hall : ∀ w ∈ all, w ≠ [] ∧ Line w := by
    intro w hw
    rcases List.mem_append.1 hw with hw | hw
    · exact ⟨hne w hw, hl w hw⟩
    · by_cases h : last = []
      · rw [if_pos h] at hw
        simp at hw
      · rw [if_neg h, List.mem_singleton] at hw
        subst hw
        exact ⟨h, hl'⟩
  have hsum : (all.map List.length).sum < W32 := by
    by_cases h : last = []
    · simp only [all, if_pos h, List.append_nil]
      omega
    · simp only [all, if_neg h, List.map_append, List.sum_append, List.map_cons, List.map_nil, List.sum_cons,
        List.sum_nil]
      omega
  obtain ⟨E, e, hacc⟩ := C40_accepts S all (fun w hw => (hall w hw).1)
    (fun w hw c hc => ((hall w hw).2 c hc).1) hsum
  have hf := fileLines_ok (ws.map encAll) (encAll last) (by
    intro l hl2
    obtain ⟨w, hw, rfl⟩ := List.mem_map.1 hl2
    exact line_nl (hl w hw)) (line_nl hl')
  have hap : ((ws.map encAll) ++ if encAll last = [] then [] else [encAll last]) = all.map encAll := by
    by_cases h : last = []
    · subst h
      simp [all, encAll]
    · rw [if_neg (encAll_ne h)]
      simp only [all, if_neg h, List.map_append, List.map_cons, List.map_nil]
  rw [hap] at hf
  have hw : wordsLoop (List.replicate k none ++ some (wordFile ws ++ encAll last) :: args) false =
      .ok (all.map encAll) := by
    induction k with
    | zero =>
      rw [List.replicate_zero, List.nil_append]
      unfold wordsLoop wordFile
      rw [hf, wordsLoop_open]
      simp
    | succ k ih => exact ih
  refine ⟨E, ?_, e, ?_⟩
  · unfold compileAndLoad makeTrie
    rw [hw, Res.ok_bind, e]
    exact C42_round_trip E old true (dictOf_fits S (fun w hw c hc => ((hall w hw).2 c hc).1) e)
  · intro w out h1 h2
    rw [← hacc w out h1 h2]
    congr 1
    simp [oneWay, encAll, List.map_map, Function.comp_def]

/-- Two words, the second file ignored, and a blank line. -/
example :
    (do let text ← makeTrie insertionSort [none, some ("ab\nb".toList.map Char.toNat),
          some ("c\n".toList.map Char.toNat)]
        return text.map fun c => Char.ofNat c) = Res.ok "97 2 1 0\n98 2 0 1\n98 1 0 1\n".toList ∧
    makeTrie insertionSort [some ("ab\n\nb\n".toList.map Char.toNat)] = .ub := by decide

end Ppocr.Props

import Verif.Proofs.Compiled
import Verif.Props.DictIO

/-! # C122: the compiled dictionary is a canonical form of the set of words -/

namespace Ppocr.Props

open Ppocr.Spec Ppocr.Proofs

/-- The text of a file with the words `ws`, one per line; the last line may lack its line feed. -/
def Listed (text : List Nat) (ws : List (List Nat)) : Prop :=
  ∃ us last, text = wordFile us ++ encAll last ∧ ws = us ++ (if last = [] then [] else [last]) ∧
    (∀ w ∈ us, w ≠ [] ∧ Line w) ∧ Line last ∧ (ws.map List.length).sum < W32

theorem listed_words {text : List Nat} {ws : List (List Nat)} (h : Listed text ws) :
    ∀ w ∈ ws, w ≠ [] ∧ ∀ c ∈ w, Scalar c := by
  obtain ⟨us, last, rfl, rfl, h1, h2, _⟩ := h
  intro w hw
  rcases List.mem_append.1 hw with hw | hw
  · exact ⟨(h1 w hw).1, fun c hc => ((h1 w hw).2 c hc).1⟩
  · by_cases h : last = []
    · rw [if_pos h] at hw
      simp at hw
    · rw [if_neg h, List.mem_singleton] at hw
      subst hw
      exact ⟨h, fun c hc => (h2 c hc).1⟩

theorem listed_makeTrie {text : List Nat} {ws : List (List Nat)} (h : Listed text ws) (S : StdSort) :
    makeTrie S [some text] = (do let E ← dictOf S (ws.map encAll); return dictWrite E) := by
  obtain ⟨us, last, rfl, rfl, h1, h2, _⟩ := h
  have hf := fileLines_ok (us.map encAll) (encAll last) (by
    intro l hl2
    obtain ⟨w, hw, rfl⟩ := List.mem_map.1 hl2
    exact line_nl (h1 w hw).2) (line_nl h2)
  have hap : ((us.map encAll) ++ if encAll last = [] then [] else [encAll last]) =
      (us ++ if last = [] then [] else [last]).map encAll := by
    by_cases h : last = []
    · subst h
      simp [encAll]
    · rw [if_neg (encAll_ne h)]
      simp only [if_neg h, List.map_append, List.map_cons, List.map_nil]
  rw [hap] at hf
  unfold makeTrie wordsLoop wordFile
  rw [hf, wordsLoop_open]
  simp

/-- **C122**: two word lists are compiled to the same file if, and only if, they have the same words: neither
the order of the lines, nor words listed more than once, nor the way `std::sort` works, nor a line feed behind
the last word make a difference, and every other difference is seen. -/
theorem C122_canonical (S S' : StdSort) {text text' : List Nat} {ws ws' : List (List Nat)} (h : Listed text ws)
    (h' : Listed text' ws') :
    makeTrie S [some text] = makeTrie S' [some text'] ↔ ∀ w, w ∈ ws ↔ w ∈ ws' := by
  have hw := listed_words h
  have hw' := listed_words h'
  rw [listed_makeTrie h, listed_makeTrie h']
  constructor
  · obtain ⟨_, _, _, _, _, _, hsz⟩ := h
    obtain ⟨_, _, _, _, _, _, hsz'⟩ := h'
    obtain ⟨E, e, hacc⟩ := C40_accepts S ws (fun w hm => (hw w hm).1) (fun w hm => (hw w hm).2) hsz
    obtain ⟨E', e', hacc'⟩ := C40_accepts S' ws' (fun w hm => (hw' w hm).1) (fun w hm => (hw' w hm).2) hsz'
    intro heq
    rw [e, e', Res.ok_bind, Res.ok_bind] at heq
    simp only [Res.pure_eq, Res.ok.injEq] at heq
    have hE := dictWrite_inj (dictOf_fits S (fun w hm => (hw w hm).2) e)
      (dictOf_fits S' (fun w hm => (hw' w hm).2) e') heq
    subst hE
    have key : ∀ w, w ≠ [] → (∀ c ∈ w, Scalar c) → (w ∈ ws ↔ w ∈ ws') := by
      intro w h1 h2
      have a := hacc w [] h1 h2
      rw [hacc' w [] h1 h2] at a
      by_cases b1 : w ∈ ws <;> by_cases b2 : w ∈ ws' <;> simp [b1, b2] at a ⊢
    exact fun w => ⟨fun hm => (key w (hw w hm).1 (hw w hm).2).1 hm,
      fun hm => (key w (hw' w hm).1 (hw' w hm).2).2 hm⟩
  · intro hm
    rw [C40_order S S' ws ws' (fun w hm => (hw w hm).2) hm]

/-- **C122**: the compiled file has one line for each different beginning of a word. -/
theorem C122_lines (S : StdSort) {text : List Nat} {ws : List (List Nat)} (h : Listed text ws) :
    ∃ out, makeTrie S [some text] = .ok out ∧ (∃ ps, Beginnings ws ps) ∧
      ∀ ps, Beginnings ws ps → out.count 10 = ps.length := by
  have hw := listed_words h
  rw [listed_makeTrie h]
  obtain ⟨_, _, _, _, _, _, hsz⟩ := h
  obtain ⟨E, e, _⟩ := C40_accepts S ws (fun w hm => (hw w hm).1) (fun w hm => (hw w hm).2) hsz
  refine ⟨dictWrite E, by rw [e, Res.ok_bind]; rfl, beginnings_exist ws, fun ps hp => ?_⟩
  rw [dictWrite_nl]
  exact dictOf_length S (fun w hm => (hw w hm).1) (fun w hm => (hw w hm).2) hsz hp e

/-- **C122**: adding words never takes a line from the compiled file; it has as many lines as before if, and
only if, every word is the beginning of a word that was listed before, and it is the same file if, and only if,
all words were listed before. -/
theorem C122_more (S S' : StdSort) {text text' : List Nat} {ws ws' : List (List Nat)} (h : Listed text ws)
    (h' : Listed text' ws') (hsub : ∀ w ∈ ws, w ∈ ws') :
    ∃ out out', makeTrie S [some text] = .ok out ∧ makeTrie S' [some text'] = .ok out' ∧
      (out = out' ↔ ∀ w ∈ ws', w ∈ ws) ∧ out.count 10 ≤ out'.count 10 ∧
      (out.count 10 = out'.count 10 ↔ ∀ w ∈ ws', ∃ v ∈ ws, w <+: v) := by
  obtain ⟨out, e, ⟨ps, hp⟩, hl⟩ := C122_lines S h
  obtain ⟨out', e', ⟨ps', hp'⟩, hl'⟩ := C122_lines S' h'
  refine ⟨out, out', e, e', ?_, ?_⟩
  · have := C122_canonical S S' h h'
    rw [e, e', Res.ok.injEq] at this
    rw [this]
    exact ⟨fun a w hw => (a w).2 hw, fun a w => ⟨hsub w, a w⟩⟩
  · rw [hl ps hp, hl' ps' hp']
    have hin : ∀ p ∈ ps, p ∈ ps' := by
      intro p hpp
      obtain ⟨h1, w, hw, h2⟩ := (hp.2 p).1 hpp
      exact (hp'.2 p).2 ⟨h1, w, hsub w hw, h2⟩
    refine ⟨length_le_of_members hp.1 hin, ?_⟩
    constructor
    · intro hlen w hw
      have hne := (listed_words h' w hw).1
      have hwp : w ∈ ps' := (hp'.2 w).2 ⟨hne, w, hw, List.prefix_refl _⟩
      by_cases hm : w ∈ ps
      · exact ((hp.2 w).1 hm).2
      · have := length_le_of_members (a := w :: ps) (b := ps') (List.nodup_cons.2 ⟨hm, hp.1⟩) (by
          intro v hv
          rcases List.mem_cons.1 hv with rfl | hv
          · exact hwp
          · exact hin v hv)
        simp only [List.length_cons] at this
        omega
    · intro hall
      refine Nat.le_antisymm (length_le_of_members hp.1 hin) (length_le_of_members hp'.1 ?_)
      intro p hpp
      obtain ⟨h1, w, hw, h2⟩ := (hp'.2 p).1 hpp
      obtain ⟨v, hv, h3⟩ := hall w hw
      exact (hp.2 p).2 ⟨h1, v, hv, h2.trans h3⟩

/-- "ab", "a" and "b" in two orders, one of them with a word twice and without the last line feed; the
beginnings are "a", "ab" and "b", and so there are three lines. Without "a" there are as many, but another file. -/
example :
    Listed ("ab\na\nb\n".toList.map Char.toNat) [[97, 98], [97], [98]] ∧
    Listed ("b\na\na\nab".toList.map Char.toNat) [[98], [97], [97], [97, 98]] ∧
    Beginnings [[97, 98], [97], [98]] [[97], [97, 98], [98]] ∧
    (do let text ← makeTrie insertionSort [some ("b\na\na\nab".toList.map Char.toNat)]
        return text.map fun c => Char.ofNat c) = Res.ok "97 2 1 1\n98 2 0 1\n98 1 0 1\n".toList ∧
    (do let text ← makeTrie insertionSort [some ("ab\na\nb\n".toList.map Char.toNat)]
        return text.map fun c => Char.ofNat c) = Res.ok "97 2 1 1\n98 2 0 1\n98 1 0 1\n".toList ∧
    (do let text ← makeTrie insertionSort [some ("ab\nb\n".toList.map Char.toNat)]
        return text.map fun c => Char.ofNat c) = Res.ok "97 2 1 0\n98 2 0 1\n98 1 0 1\n".toList := by
  refine ⟨⟨[[97, 98], [97], [98]], [], by decide, rfl, ?_, by unfold Line; simp, by decide⟩,
    ⟨[[98], [97], [97]], [97, 98], by decide, rfl, ?_, ?_, by decide⟩, ⟨by decide, ?_⟩, by decide, by decide,
    by decide⟩
  · unfold Line Scalar
    decide
  · unfold Line Scalar
    decide
  · unfold Line Scalar
    decide
  · intro p
    constructor
    · intro h
      simp only [List.mem_cons, List.not_mem_nil, or_false] at h
      rcases h with rfl | rfl | rfl
      · exact ⟨by decide, [97], by decide, by decide⟩
      · exact ⟨by decide, [97, 98], by decide, by decide⟩
      · exact ⟨by decide, [98], by decide, by decide⟩
    · rintro ⟨hne, w, hw, hp⟩
      simp only [List.mem_cons, List.not_mem_nil, or_false] at hw
      have := List.prefix_iff_eq_take.1 hp
      have hl := hp.length_le
      have : ∀ k ≤ w.length, k ≠ 0 → w.take k ∈ [[97], [97, 98], [98]] := by
        rcases hw with rfl | rfl | rfl <;> decide
      rw [List.prefix_iff_eq_take.1 hp]
      exact this _ hl (by simpa using hne)

end Ppocr.Props

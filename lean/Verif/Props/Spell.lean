import Verif.Proofs.Disambiguouser

/-! # C39-C41, C43: UTF-8, dictionaries and the choice of a word -/

namespace Ppocr.Props
open Ppocr Spec

/-! ## C39 -/

/-- **C39**, `UTF8toUnicodeIterator`: on a terminated string it yields the characters, then 0, and stops just
behind the terminator. With nothing behind the terminator (`rest = []`) the result `ok` says that nothing
is read there. -/
theorem C39_unicode (cs rest : List Nat) (hs : ∀ c ∈ cs, Scalar c) :
    utfCodes unicodeNext (encAll cs ++ 0 :: rest) = .ok (cs, (encAll cs).length + 1) :=
  unicode_codes cs rest hs

/-- **C39**, `UTF8Iterator`: the same with the packed bytes. -/
theorem C39_bytes (cs rest : List Nat) (hs : ∀ c ∈ cs, Scalar c) :
    utfCodes utf8Next (encAll cs ++ 0 :: rest) = .ok (cs.map packed, (encAll cs).length + 1) :=
  utf8_codes cs rest hs

/-- The packed codes distinguish the characters and fit in 32 bits. -/
theorem C39_codes {c d : Nat} (hc : Scalar c) (hd : Scalar d) :
    0 < packed c ∧ packed c < W32 ∧ (packed c = packed d → c = d) :=
  ⟨packed_pos hc, packed_lt hc, packed_inj hc hd⟩

/-- `aé€😀`. -/
example : encAll [0x61, 0xE9, 0x20AC, 0x1F600] = [0x61, 0xC3, 0xA9, 0xE2, 0x82, 0xAC, 0xF0, 0x9F, 0x98, 0x80] ∧
    utfCodes unicodeNext [0x61, 0xC3, 0xA9, 0xE2, 0x82, 0xAC, 0xF0, 0x9F, 0x98, 0x80, 0] =
      .ok ([0x61, 0xE9, 0x20AC, 0x1F600], 11) ∧
    utfCodes utf8Next [0x61, 0xC3, 0xA9, 0xE2, 0x82, 0xAC, 0xF0, 0x9F, 0x98, 0x80, 0] =
      .ok ([0x61, 0xC3A9, 0xE282AC, 0xF09F9880], 11) := by decide

/-- A string cut in the middle of a character is read past its terminator: validity is needed. -/
example : utfCodes unicodeNext [0xC3, 0] = .ub ∧ utfCodes utf8Next [0x61, 0xE2, 0x82, 0] = .ub := by decide

/-! ## C40 -/

/-- The table that offers exactly one spelling. -/
def oneWay (w : List Nat) : List (List (List Nat)) := w.map fun c => [[c]]

theorem oneWay_choices : ∀ w : List Nat, choices (oneWay w) = [w.map fun c => [c]]
  | [] => rfl
  | c :: w => by
    have := oneWay_choices w
    simp only [oneWay, List.map_cons, choices, List.flatMap_cons, List.flatMap_nil, List.append_nil] at *
    rw [this]
    rfl

theorem oneWay_spell : ∀ w : List Nat, spellCut (w.map fun c => [c]) = w
  | [] => rfl
  | [c] => rfl
  | c :: d :: w => by
    have := oneWay_spell (d :: w)
    simp only [List.map_cons] at this ⊢
    rw [spellCut, this]
    rfl

/-- **C40**: a dictionary can be built from every list of valid non-empty words (of a total length below
2^32); asked for a word letter by letter, it accepts exactly the words of the list. -/
theorem C40_accepts (S : StdSort) (ws : List (List Nat)) (hne : ∀ w ∈ ws, w ≠ [])
    (hs : ∀ w ∈ ws, ∀ c ∈ w, Scalar c) (hsz : (ws.map List.length).sum < W32) :
    ∃ E, dictOf S (ws.map encAll) = .ok E ∧ ∀ w out, w ≠ [] → (∀ c ∈ w, Scalar c) →
      disambiguous E ((oneWay w).map (List.map fun c => encAll c ++ [0])) out =
        .ok (if w ∈ ws then (true, out ++ encAll w) else (false, out)) := by
  obtain ⟨E, t, e, hst, hrep, hl, hE, hroot, _, _⟩ := dictOf_ok S hne hs hsz
  refine ⟨E, e, ?_⟩
  intro w out hw hsw
  have ht : oneWay w = ((oneWay w).map (List.map fun c => (c, ([] : List Nat)))).map (List.map Prod.fst) := by
    rw [List.map_map, List.map_congr_left (g := id)]
    · simp
    · intro l _
      simp [Function.comp_def]
  have hm : (oneWay w).map (List.map fun c => encAll c ++ [0]) =
      ((oneWay w).map (List.map fun c => (c, ([] : List Nat)))).map (List.map mem) := by
    rw [List.map_map]
    apply List.map_congr_left
    intro l _
    simp [Function.comp_def, mem]
  rw [hm, disambiguous_ok hrep hst hE hroot _ (by simpa [oneWay] using hw), ← ht,
    choice_eq hl hs (by
      intro cands hc c hcc x hx
      simp only [oneWay, List.mem_map] at hc
      obtain ⟨d, hd, rfl⟩ := hc
      simp only [List.mem_singleton] at hcc
      subst hcc
      simp only [List.mem_singleton] at hx
      subst hx
      exact hsw x hd)]
  · unfold preferred
    rw [oneWay_choices, List.find?_cons, oneWay_spell]
    by_cases h : w ∈ ws
    · rw [decide_eq_true h, if_pos h]
      simp [oneWay_spell]
    · rw [decide_eq_false h, if_neg h]
      rfl
  · intro cands hc p hp
    simp only [oneWay, List.map_map, List.mem_map, Function.comp_apply] at hc
    obtain ⟨d, hd, rfl⟩ := hc
    simp only [List.map_cons, List.map_nil, List.mem_singleton] at hp
    subst hp
    exact ⟨by simp, fun c hc => by simp at hc; subst hc; exact hsw c hd⟩

/-- **C40**: neither the order nor the number of occurrences of the words matters, nor the way `std::sort`
works. -/
theorem C40_order (S S' : StdSort) (ws ws' : List (List Nat)) (hs : ∀ w ∈ ws, ∀ c ∈ w, Scalar c)
    (h : ∀ w, w ∈ ws ↔ w ∈ ws') : dictOf S (ws.map encAll) = dictOf S' (ws'.map encAll) := by
  obtain ⟨l, e1, hi, hm⟩ := sortedWords_ok S (ws.map (List.map packed))
  obtain ⟨l', e1', hi', hm'⟩ := sortedWords_ok S' (ws'.map (List.map packed))
  have : l = l' := increasing_ext hi hi' fun w => by
    rw [hm, hm', List.mem_map, List.mem_map]
    exact ⟨fun ⟨a, ha, e⟩ => ⟨a, (h a).1 ha, e⟩, fun ⟨a, ha, e⟩ => ⟨a, (h a).2 ha, e⟩⟩
  subst this
  unfold dictOf
  rw [allCodes_ok hs, allCodes_ok fun w hw => hs w ((h w).2 hw), Res.ok_bind, Res.ok_bind, e1, e1']

/-- The empty word must be excluded: with it the constructor reads behind the end of an empty vector. -/
theorem C40_empty_word (S : StdSort) (ws : List (List Nat)) (hs : ∀ w ∈ ws, ∀ c ∈ w, Scalar c)
    (h : [] ∈ ws) : dictOf S (ws.map encAll) = .ub := by
  obtain ⟨l, e1, hi, hm⟩ := sortedWords_ok S (ws.map (List.map packed))
  have hl : [] ∈ l := (hm _).2 (List.mem_map.2 ⟨[], h, rfl⟩)
  unfold dictOf
  rw [allCodes_ok hs, Res.ok_bind, e1, Res.ok_bind]
  cases l with
  | nil => simp at hl
  | cons a l =>
    have ha : a = [] := by
      rcases List.mem_cons.1 hl with e | hl
      · exact e.symm
      · have := (List.pairwise_cons.1 hi).1 [] hl
        simp [wordLt] at this
    subst ha
    rfl

/-- `été`, `à`, `a`, `à`, `ét`. -/
def someWords : List (List Nat) := [[0xE9, 0x74, 0xE9], [0xE0], [0x61], [0xE0], [0xE9, 0x74]]

example : dictOf insertionSort (someWords.map encAll) =
    .ok [⟨0x61, 3, 0, true⟩, ⟨0xC3A0, 2, 0, true⟩, ⟨0xC3A9, 1, 1, false⟩, ⟨0x74, 1, 1, true⟩,
      ⟨0xC3A9, 1, 0, true⟩] ∧
    dictOf insertionSort [[]] = .ub := by decide

/-! ## C41 -/

/-- **C41**: flattening any trie (of fewer than 2^32 nodes) succeeds; the vector has one element per node of
the trie, starts with its first level, and each element leads to the children of its node: the ranges stay
inside the vector. -/
theorem C41_structure (t : Trie) (h : t.count < W32) :
    ∃ E, flatTrie t = .ok E ∧ E.length = t.count ∧ Rep E 0 t ∧
      (t ≠ .nil → rootRange E = .ok (0, t.size)) :=
  flatTrie_ok t h

/-- **C41**: from the first level, `lower_bound` and `childrens` reach exactly the nodes of a sorted trie, with
the same value, terminal flag and number of children. -/
theorem C41_descend (t : Trie) (h : t.count < W32) (hs : SortedTrie t) :
    ∃ E, flatTrie t = .ok E ∧ ∀ w, ∃ o, flatDescend E (0, t.size) w = .ok o ∧
      match descend t w with
      | none => o = none
      | some (b, k) => ∃ f, o = some f ∧ f.term = b ∧ f.count = k.size ∧ w.getLast? = some f.x := by
  obtain ⟨E, e, _, hr, _⟩ := flatTrie_ok t h
  exact ⟨E, e, fun w => flatDescend_ok w t 0 hr hs⟩

/-- **C41**: a trie built from a strictly increasing range of non-empty words is sorted, its words are those
of the range, and descending the flat trie along a word ends at a terminal node exactly for those. -/
theorem C41_words (ws : List (List Nat)) (hne : ∀ w ∈ ws, w ≠ []) (hi : Increasing ws)
    (hsz : (ws.map List.length).sum < W32) :
    ∃ t E, trieOf ws = .ok t ∧ flatTrie t = .ok E ∧ lang t = ws ∧ SortedTrie t ∧
      ∀ w, w ∈ ws ↔ ∃ f, flatDescend E (0, t.size) w = .ok (some f) ∧ f.term = true := by
  obtain ⟨t, e, hl, hs, hc⟩ := trieOf_ok hne hi
  obtain ⟨E, e2, hd⟩ := C41_descend t (by omega) hs
  refine ⟨t, E, e, e2, hl, hs, ?_⟩
  intro w
  obtain ⟨o, eo, ho⟩ := hd w
  rw [← hl, mem_lang_descend w t hs, eo]
  constructor
  · rintro ⟨k, hk⟩
    rw [hk] at ho
    obtain ⟨f, rfl, hf, _⟩ := ho
    exact ⟨f, rfl, hf⟩
  · rintro ⟨f, hf, ht⟩
    injection hf with hf
    subst hf
    cases hdd : descend t w with
    | none =>
      rw [hdd] at ho
      simp at ho
    | some bk =>
      obtain ⟨b, k⟩ := bk
      rw [hdd] at ho
      obtain ⟨f', e1, e2, _⟩ := ho
      injection e1 with e1
      subst e1
      rw [← e2, ht]
      exact ⟨k, rfl⟩

/-- `{1, 12, 3}`: the child of the first node comes after the first level. -/
example : (do let t ← trieOf [[1], [1, 2], [3]]; flatTrie t) =
      .ok [⟨1, 2, 1, true⟩, ⟨3, 2, 0, true⟩, ⟨2, 1, 0, true⟩] ∧
    flatDescend [⟨1, 2, 1, true⟩, ⟨3, 2, 0, true⟩, ⟨2, 1, 0, true⟩] (0, 2) [1, 2] =
      .ok (some ⟨2, 1, 0, true⟩) ∧
    flatDescend [⟨1, 2, 1, true⟩, ⟨3, 2, 0, true⟩, ⟨2, 1, 0, true⟩] (0, 2) [3, 2] = .ok none := by decide

/-! ## C43 -/

/-- The result promised for a table of candidates, for a way `sp` to spell a choice. -/
def promised (sp : List (List Nat) → List Nat) (ws : List (List Nat)) (table : List (List (List Nat)))
    (out : List Nat) : Bool × List Nat :=
  match preferred sp ws table with
  | none => (false, out)
  | some ch => (true, out ++ encAll (sp ch))

/-- **C43** as stated. A candidate is a string and whatever memory follows its terminator. -/
def C43_statement : Prop :=
  ∀ (S : StdSort) (ws : List (List Nat)) (table : List (List (List Nat × List Nat))) (out : List Nat),
    (∀ w ∈ ws, w ≠ []) → (∀ w ∈ ws, ∀ c ∈ w, Scalar c) → (ws.map List.length).sum < W32 → table ≠ [] →
    (∀ cands ∈ table, ∀ p ∈ cands, GoodCand p) →
    ∃ E, dictOf S (ws.map encAll) = .ok E ∧
      disambiguous E (table.map (List.map mem)) out =
        .ok (promised spell ws (table.map (List.map Prod.fst)) out)

/-- The program, with the dictionary {`ab`}, does not find `ab` when it is a single candidate; with the
dictionary {`a`} it takes the candidate `ab` for the word `a`. -/
theorem C43_last_candidate :
    (do let E ← dictOf insertionSort [[97, 98]]; disambiguous E [[[97, 98, 0]]] []) = .ok (false, []) ∧
    (do let E ← dictOf insertionSort [[97]]; disambiguous E [[[97, 98, 0]]] []) = .ok (true, [97]) := by
  decide

/-- So C43 is false: only the first character of a candidate of the last position counts. -/
theorem C43_wrong_last : ¬ C43_statement := by
  intro h
  obtain ⟨E, e1, e2⟩ := h insertionSort [[97, 98]] [[([97, 98], [])]] [] (by simp) (by decide) (by decide)
    (by simp) (by
      intro cands hc p hp
      simp only [List.mem_singleton] at hc
      subst hc
      simp only [List.mem_singleton] at hp
      subst hp
      exact ⟨by simp, by decide⟩)
  have h1 := C43_last_candidate.1
  have e1' : dictOf insertionSort [[97, 98]] = .ok E := e1
  have e2' : disambiguous E [[[97, 98, 0]]] [] = .ok (true, [97, 98]) := e2
  rw [e1', Res.ok_bind, e2'] at h1
  simp at h1

/-- **C43**, what holds: the result is the promised one for the spelling that cuts the last candidate to its
first character. In particular the search always terminates within the trie and the strings, and the output
is unchanged when the result is false. -/
theorem C43_search_partial (S : StdSort) (ws : List (List Nat)) (table : List (List (List Nat × List Nat)))
    (out : List Nat) (hne : ∀ w ∈ ws, w ≠ []) (hs : ∀ w ∈ ws, ∀ c ∈ w, Scalar c)
    (hsz : (ws.map List.length).sum < W32) (ht : table ≠ [])
    (hg : ∀ cands ∈ table, ∀ p ∈ cands, GoodCand p) :
    ∃ E, dictOf S (ws.map encAll) = .ok E ∧
      disambiguous E (table.map (List.map mem)) out =
        .ok (promised spellCut ws (table.map (List.map Prod.fst)) out) := by
  obtain ⟨E, t, e, hst, hrep, hl, hE, hroot, _, _⟩ := dictOf_ok S hne hs hsz
  refine ⟨E, e, ?_⟩
  rw [disambiguous_ok hrep hst hE hroot table ht hg, choice_eq hl hs (by
    intro cands hc c hcc x hx
    obtain ⟨l, hl, rfl⟩ := List.mem_map.1 hc
    obtain ⟨p, hp, rfl⟩ := List.mem_map.1 hcc
    exact (hg l hl p hp).2 x hx)]
  unfold promised
  cases preferred spellCut ws (table.map (List.map Prod.fst)) <;> rfl

theorem spellCut_eq : ∀ {ch : List (List Nat)}, (∀ c, ch.getLast? = some c → c.length = 1) →
    spellCut ch = spell ch
  | [], _ => rfl
  | [c], h => by
    have := h c rfl
    unfold spellCut spell
    rw [List.take_of_length_le (by omega)]
    simp
  | c :: d :: ch, h => by
    have := spellCut_eq (ch := d :: ch) fun x hx => h x (by rw [List.getLast?_cons_cons]; exact hx)
    unfold spellCut
    rw [this]
    simp [spell]

theorem choices_last : ∀ {table : List (List (List Nat))} {ch : List (List Nat)}, ch ∈ choices table →
    ∀ c, ch.getLast? = some c → ∃ cands, table.getLast? = some cands ∧ c ∈ cands
  | [], ch, h, c, hc => by
    simp only [choices, List.mem_singleton] at h
    subst h
    simp at hc
  | cands :: rest, ch, h, c, hc => by
    simp only [choices, List.mem_flatMap, List.mem_map] at h
    obtain ⟨d, hd, ch', hch', rfl⟩ := h
    cases ch' with
    | nil =>
      cases rest with
      | nil =>
        simp only [List.getLast?_singleton, Option.some.injEq] at hc
        subst hc
        exact ⟨cands, rfl, hd⟩
      | cons r rest =>
        simp only [choices, List.mem_flatMap, List.mem_map] at hch'
        obtain ⟨_, _, _, _, h⟩ := hch'
        simp at h
    | cons a ch' =>
      rw [List.getLast?_cons_cons] at hc
      obtain ⟨l, hl, hcl⟩ := choices_last hch' c hc
      cases rest with
      | nil => simp at hl
      | cons r rest => exact ⟨l, by rw [List.getLast?_cons_cons]; exact hl, hcl⟩

/-- **C43** as stated, when every candidate of the last position is a single character. -/
theorem C43_search_when (S : StdSort) (ws : List (List Nat)) (table : List (List (List Nat × List Nat)))
    (out : List Nat) (hne : ∀ w ∈ ws, w ≠ []) (hs : ∀ w ∈ ws, ∀ c ∈ w, Scalar c)
    (hsz : (ws.map List.length).sum < W32) (ht : table ≠ [])
    (hg : ∀ cands ∈ table, ∀ p ∈ cands, GoodCand p)
    (hlast : ∀ cands, table.getLast? = some cands → ∀ p ∈ cands, p.1.length = 1) :
    ∃ E, dictOf S (ws.map encAll) = .ok E ∧
      disambiguous E (table.map (List.map mem)) out =
        .ok (promised spell ws (table.map (List.map Prod.fst)) out) := by
  obtain ⟨E, e, h⟩ := C43_search_partial S ws table out hne hs hsz ht hg
  refine ⟨E, e, ?_⟩
  rw [h]
  have hsp : ∀ ch ∈ choices (table.map (List.map Prod.fst)), spellCut ch = spell ch := by
    intro ch hch
    apply spellCut_eq
    intro c hc
    obtain ⟨cands, h1, h2⟩ := choices_last hch c hc
    rw [List.getLast?_map, Option.map_eq_some_iff] at h1
    obtain ⟨l, hl, rfl⟩ := h1
    obtain ⟨p, hp, rfl⟩ := List.mem_map.1 h2
    exact hlast l hl p hp
  unfold promised preferred
  rw [find?_congr' (q := fun ch => decide (spell ch ∈ ws)) fun ch hch => by rw [hsp ch hch]]
  cases e : (choices (table.map (List.map Prod.fst))).find? fun ch => decide (spell ch ∈ ws) with
  | none => rfl
  | some ch => simp only []; rw [hsp ch (List.mem_of_find?_eq_some e)]

/-- An empty table, or an empty dictionary, gives false. -/
theorem C43_empty (E : List FNode) (table : List (List (List Nat))) (out : List Nat)
    (h : table = [] ∨ E = []) : disambiguous E table out = .ok (false, out) := by
  unfold disambiguous
  rw [if_pos h]

/-- `ole` and `été` can both be spelled: `é` is preferred in the first position, then `l` leads nowhere. -/
example : (do
    let E ← dictOf insertionSort [[111, 108, 101], [0xC3, 0xA9, 116, 0xC3, 0xA9]]
    disambiguous E [[[0xC3, 0xA9, 0], [111, 0]], [[108, 0], [116, 0]], [[0xC3, 0xA9, 0], [101, 0]]] [33]) =
    .ok (true, [33, 0xC3, 0xA9, 116, 0xC3, 0xA9]) := by decide

end Ppocr.Props

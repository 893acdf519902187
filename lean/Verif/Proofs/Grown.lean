import Verif.Spec.Grown
import Verif.Proofs.Dictionary

/-! # Lemmas on words added to a dictionary (C118) -/

namespace Ppocr.Spec

/-- A function from dictionaries to texts that only looks up words: the letters fall into pieces, of which those that depend on the dictionary
are words. -/
def Looks (sep : List (List Nat) → Bool) (ls : List (List (List Nat))) (f : List (List Nat) → List Nat) : Prop :=
  ∃ qs : List (List (List (List Nat)) × Option (List Nat)), qs.flatMap (fun q => q.1) = ls ∧
    (∀ q ∈ qs, q.2 = none → ∀ l ∈ q.1, sep l = false) ∧ ∀ ws, f ws = qs.flatMap fun q => q.2.getD (runText ws q.1)

theorem looks_nil (sep : List (List Nat) → Bool) : Looks sep [] fun _ => [] := ⟨[], by simp⟩

theorem Looks.append {sep : List (List Nat) → Bool} {ls ls' : List (List (List Nat))} {f f' : List (List Nat) → List Nat} (h : Looks sep ls f)
    (h' : Looks sep ls' f') : Looks sep (ls ++ ls') fun ws => f ws ++ f' ws := by
  obtain ⟨ps, rfl, h1, h2⟩ := h
  obtain ⟨qs, rfl, h1', h2'⟩ := h'
  refine ⟨ps ++ qs, by simp, ?_, fun ws => by simp [h2, h2']⟩
  intro q hq
  rcases List.mem_append.1 hq with hq | hq
  · exact h1 q hq
  · exact h1' q hq

theorem looks_same (sep : List (List Nat) → Bool) (ls : List (List (List Nat))) (t : List Nat) : Looks sep ls fun _ => t :=
  ⟨[(ls, some t)], by simp, by simp, by simp⟩

theorem looks_run {sep : List (List Nat) → Bool} {run : List (List (List Nat))} (h : ∀ l ∈ run, sep l = false) :
    Looks sep run fun ws => runText ws run :=
  ⟨[(run, none)], by simp, fun q hq _ => by rw [List.mem_singleton.1 hq]; exact h, by simp⟩

theorem segText_looks : ∀ (n : Nat) (ls : List (List (List Nat))), ls.length ≤ n → Looks isSep ls fun ws => segText ws ls
  | _, [], _ => by simp only [segText]; exact looks_nil _
  | 0, _ :: _, h => by simp at h
  | n + 1, l :: ls, h => by
    by_cases hl : isSep l = true
    · have e : (fun ws => segText ws (l :: ls)) = fun ws => sepText l ++ segText ws ls := by
        funext ws
        rw [segText, dif_pos hl]
      rw [e]
      exact (looks_same isSep [l] (sepText l)).append (segText_looks n ls (by simpa using h))
    · have e : (fun ws => segText ws (l :: ls)) =
          fun ws => runText ws ((l :: ls).takeWhile (!isSep ·)) ++ segText ws ((l :: ls).dropWhile (!isSep ·)) := by
        funext ws
        rw [segText, dif_neg hl]
      rw [e]
      have hlen : ((l :: ls).dropWhile (!isSep ·)).length ≤ n := by
        rw [List.dropWhile_cons_of_pos (by simpa using hl)]
        have := (List.dropWhile_sublist (l := ls) (!isSep ·)).length_le
        simp only [List.length_cons] at h
        omega
      have := (looks_run (sep := isSep) (takeWhile_not (l :: ls))).append (segText_looks n _ hlen)
      rwa [List.takeWhile_append_dropWhile] at this

theorem saying_looks : ∀ (n : Nat) (ls : List (List (List Nat))), ls.length ≤ n → Looks isStop ls fun ws => saying ws ls
  | _, [], _ => by simp only [saying]; exact looks_nil _
  | 0, _ :: _, h => by simp at h
  | n + 1, l :: ls, h => by
    by_cases hl : isStop l = true
    · have e : (fun ws => saying ws (l :: ls)) = fun ws => sepText l ++ saying ws ls := by
        funext ws
        rw [saying, dif_pos hl]
      rw [e]
      exact (looks_same isStop [l] (sepText l)).append (saying_looks n ls (by simpa using h))
    · have e : (fun ws => saying ws (l :: ls)) =
          fun ws => runText ws ((l :: ls).takeWhile (!isStop ·)) ++ saying ws ((l :: ls).dropWhile (!isStop ·)) := by
        funext ws
        rw [saying, dif_neg hl]
      rw [e]
      have hlen : ((l :: ls).dropWhile (!isStop ·)).length ≤ n := by
        rw [List.dropWhile_cons_of_pos (by simpa using hl)]
        have := (List.dropWhile_sublist (l := ls) (!isStop ·)).length_le
        simp only [List.length_cons] at h
        omega
      have := (looks_run (sep := isStop) (takeWhile_not (l :: ls))).append (saying_looks n _ hlen)
      rwa [List.takeWhile_append_dropWhile] at this

theorem intercalate_looks {sep : List (List Nat) → Bool} (f : List (List (List Nat)) → List (List Nat) → List Nat)
    (h : ∀ ls, Looks sep ls (f ls)) : ∀ segs : List (List (List (List Nat))),
    Looks sep segs.flatten fun ws => [32].intercalate (segs.map fun s => f s ws)
  | [] => by simpa [List.intercalate] using looks_nil sep
  | [s] => by simpa [List.intercalate] using h s
  | s :: s' :: segs => by
    have ih := intercalate_looks f h (s' :: segs)
    have := ((h s).append (looks_same sep [] [32])).append ih
    simpa [List.intercalate, List.intersperse] using this

/-! ### One word -/

theorem find?_weaker {α : Type} {p q : α → Bool} (h : ∀ a, p a = true → q a = true) : ∀ cs : List α, cs.find? p = cs.find? q ∨
    ∃ before c after, cs = before ++ c :: after ∧ cs.find? q = some c ∧ q c = true ∧ p c = false ∧ ∀ b ∈ before, q b = false
  | [] => .inl rfl
  | c :: cs => by
    by_cases hp : p c = true
    · exact .inl (by rw [List.find?_cons_of_pos hp, List.find?_cons_of_pos (h c hp)])
    · by_cases hq : q c = true
      · exact .inr ⟨[], c, cs, rfl, List.find?_cons_of_pos hq, hq, by simpa using hp, by simp⟩
      · rw [List.find?_cons_of_neg hp, List.find?_cons_of_neg hq]
        rcases find?_weaker h cs with e | ⟨before, d, after, e1, e2, e3, e4, e5⟩
        · exact .inl e
        · refine .inr ⟨c :: before, d, after, by rw [e1]; rfl, e2, e3, e4, ?_⟩
          intro b hb
          rcases List.mem_cons.1 hb with rfl | hb
          · simpa using hq
          · exact e5 b hb

theorem find?_either {α : Type} {p q r : α → Bool} (h : ∀ a, r a = (p a || q a)) : ∀ cs : List α,
    (cs.find? r = cs.find? p ∧ (cs.find? p = none → cs.find? q = none)) ∨ (cs.find? r = cs.find? q ∧ ∃ c, cs.find? q = some c)
  | [] => .inl ⟨rfl, fun _ => rfl⟩
  | c :: cs => by
    by_cases hp : p c = true
    · exact .inl ⟨by rw [List.find?_cons_of_pos hp, List.find?_cons_of_pos (by rw [h, hp]; rfl)], fun h => by
        rw [List.find?_cons_of_pos hp] at h; cases h⟩
    · have hp' : p c = false := by simpa using hp
      by_cases hq : q c = true
      · exact .inr ⟨by rw [List.find?_cons_of_pos hq, List.find?_cons_of_pos (by rw [h, hq, Bool.or_true])], c, List.find?_cons_of_pos hq⟩
      · have hq' : q c = false := by simpa using hq
        rw [List.find?_cons_of_neg hp, List.find?_cons_of_neg hq, List.find?_cons_of_neg (by rw [h, hp', hq']; simp)]
        exact find?_either h cs

theorem runText_widens {ws ws' : List (List Nat)} (h : ∀ w ∈ ws, w ∈ ws') (run : List (List (List Nat))) :
    Widens ws ws' run (runText ws run) (runText ws' run) := by
  unfold runText preferred
  rcases find?_weaker (p := fun ch => decide (spellCut ch ∈ ws)) (q := fun ch => decide (spellCut ch ∈ ws'))
    (fun ch hc => decide_eq_true (h _ (of_decide_eq_true hc))) (choices run) with e | ⟨before, ch, after, e1, e2, e3, e4, e5⟩
  · rw [e]
    exact .inl rfl
  · rw [e2]
    exact .inr ⟨of_decide_eq_true e3, of_decide_eq_false e4, before, ch, after, e1, rfl, fun b hb => of_decide_eq_false (e5 b hb)⟩

theorem runText_joined {ws ws' us : List (List Nat)} (h : ∀ w, w ∈ us ↔ w ∈ ws ∨ w ∈ ws') (run : List (List (List Nat))) :
    runText us run = runText ws run ∨ runText us run = runText ws' run := by
  unfold runText preferred
  rcases find?_either (p := fun ch => decide (spellCut ch ∈ ws)) (q := fun ch => decide (spellCut ch ∈ ws'))
    (r := fun ch => decide (spellCut ch ∈ us))
    (fun ch => by rw [← Bool.decide_or]; exact decide_eq_decide.2 (h _)) (choices run) with ⟨e, _⟩ | ⟨e, _⟩
  · rw [e]
    exact .inl rfl
  · rw [e]
    exact .inr rfl

/-! ### The text -/

theorem Looks.grown {sep : List (List Nat) → Bool} {ls : List (List (List Nat))} {f : List (List Nat) → List Nat} (h : Looks sep ls f)
    {ws ws' : List (List Nat)} (hw : ∀ w ∈ ws, w ∈ ws') : Grown sep ws ws' ls (f ws) (f ws') := by
  obtain ⟨qs, h1, h2, h3⟩ := h
  refine ⟨qs.map fun q => (q.1, q.2.getD (runText ws q.1), q.2.getD (runText ws' q.1)), ?_, ?_, ?_, ?_⟩
  · rw [List.flatMap_map]
    exact h1
  · rw [List.flatMap_map]
    exact h3 ws
  · rw [List.flatMap_map]
    exact h3 ws'
  · intro p hp
    obtain ⟨q, hq, rfl⟩ := List.mem_map.1 hp
    cases e : q.2 with
    | some t => exact .inl rfl
    | none => exact .inr ⟨h2 q hq e, runText_widens hw q.1⟩

theorem Looks.both {sep : List (List Nat) → Bool} {ls : List (List (List Nat))} {f : List (List Nat) → List Nat} (h : Looks sep ls f)
    {ws ws' us : List (List Nat)} (hw : ∀ w, w ∈ us ↔ w ∈ ws ∨ w ∈ ws') : BothTold sep ls (f ws) (f ws') (f us) := by
  obtain ⟨qs, h1, h2, h3⟩ := h
  refine ⟨qs.map fun q => (q.1, q.2.getD (runText ws q.1), q.2.getD (runText ws' q.1), q.2.getD (runText us q.1)), ?_, ?_, ?_, ?_, ?_⟩
  · rw [List.flatMap_map]
    exact h1
  · rw [List.flatMap_map]
    exact h3 ws
  · rw [List.flatMap_map]
    exact h3 ws'
  · rw [List.flatMap_map]
    exact h3 us
  · intro p hp
    obtain ⟨q, hq, rfl⟩ := List.mem_map.1 hp
    cases e : q.2 with
    | some t => exact ⟨.inl rfl, .inl rfl⟩
    | none => exact ⟨runText_joined hw q.1, .inr (h2 q hq e)⟩

end Ppocr.Spec

import Verif.Spec.Dictionary
import Verif.Spec.Line6

/-! # Lemmas on what a dictionary changes (C105) -/

namespace Ppocr.Spec

theorem retold_nil (sep : List (List Nat) → Bool) (ws ws' : List (List Nat)) : Retold sep ws ws' [] [] [] :=
  ⟨[], by simp⟩

theorem Retold.append {sep : List (List Nat) → Bool} {ws ws' : List (List Nat)} {ls ls' : List (List (List Nat))}
    {t t' u u' : List Nat} (h : Retold sep ws ws' ls t t') (h' : Retold sep ws ws' ls' u u') :
    Retold sep ws ws' (ls ++ ls') (t ++ u) (t' ++ u') := by
  obtain ⟨ps, rfl, rfl, rfl, h⟩ := h
  obtain ⟨qs, rfl, rfl, rfl, h'⟩ := h'
  refine ⟨ps ++ qs, by simp, by simp, by simp, ?_⟩
  intro p hp
  rcases List.mem_append.1 hp with hp | hp
  · exact h p hp
  · exact h' p hp

/-- Letters that are printed alike. -/
theorem retold_same (sep : List (List Nat) → Bool) (ws ws' : List (List Nat)) (ls : List (List (List Nat))) (t : List Nat) :
    Retold sep ws ws' ls t t :=
  ⟨[(ls, t, t)], by simp, by simp, by simp, fun p hp => by rw [List.mem_singleton.1 hp]; exact .inl rfl⟩

theorem runText_told (ws : List (List Nat)) (run : List (List (List Nat))) : Told ws run (runText ws run) := by
  unfold runText
  cases h : preferred spellCut ws run with
  | none => exact .inl rfl
  | some ch =>
    right
    exact ⟨by simpa using List.find?_some h, ch, List.mem_of_find?_eq_some h, rfl⟩

theorem retold_run {sep : List (List Nat) → Bool} (ws ws' : List (List Nat)) {run : List (List (List Nat))}
    (h : ∀ l ∈ run, sep l = false) : Retold sep ws ws' run (runText ws run) (runText ws' run) :=
  ⟨[(run, runText ws run, runText ws' run)], by simp, by simp, by simp,
    fun p hp => by rw [List.mem_singleton.1 hp]; exact .inr ⟨h, runText_told ws run, runText_told ws' run⟩⟩

theorem takeWhile_not {sep : List (List Nat) → Bool} (ls : List (List (List Nat))) : ∀ l ∈ ls.takeWhile (!sep ·), sep l = false := by
  intro l hl
  simpa using List.all_eq_true.1 (List.all_takeWhile (l := ls) (p := fun l => !sep l)) l hl

theorem segText_retold (ws ws' : List (List Nat)) : ∀ (n : Nat) (ls : List (List (List Nat))), ls.length ≤ n →
    Retold isSep ws ws' ls (segText ws ls) (segText ws' ls)
  | _, [], _ => by rw [segText, segText]; exact retold_nil _ _ _
  | 0, _ :: _, h => by simp at h
  | n + 1, l :: ls, h => by
    rw [segText, segText]
    by_cases hl : isSep l = true
    · rw [dif_pos hl, dif_pos hl]
      exact (retold_same isSep ws ws' [l] (sepText l)).append (segText_retold ws ws' n ls (by simpa using h))
    · rw [dif_neg hl, dif_neg hl]
      have hlen : ((l :: ls).dropWhile (!isSep ·)).length ≤ n := by
        rw [List.dropWhile_cons_of_pos (by simpa using hl)]
        have := (List.dropWhile_sublist (l := ls) (!isSep ·)).length_le
        simp only [List.length_cons] at h
        omega
      have := (retold_run (sep := isSep) ws ws' (takeWhile_not (l :: ls))).append (segText_retold ws ws' n _ hlen)
      rwa [List.takeWhile_append_dropWhile] at this

theorem saying_retold (ws ws' : List (List Nat)) : ∀ (n : Nat) (ls : List (List (List Nat))), ls.length ≤ n →
    Retold isStop ws ws' ls (saying ws ls) (saying ws' ls)
  | _, [], _ => by rw [saying, saying]; exact retold_nil _ _ _
  | 0, _ :: _, h => by simp at h
  | n + 1, l :: ls, h => by
    rw [saying, saying]
    by_cases hl : isStop l = true
    · rw [dif_pos hl, dif_pos hl]
      exact (retold_same isStop ws ws' [l] (sepText l)).append (saying_retold ws ws' n ls (by simpa using h))
    · rw [dif_neg hl, dif_neg hl]
      have hlen : ((l :: ls).dropWhile (!isStop ·)).length ≤ n := by
        rw [List.dropWhile_cons_of_pos (by simpa using hl)]
        have := (List.dropWhile_sublist (l := ls) (!isStop ·)).length_le
        simp only [List.length_cons] at h
        omega
      have := (retold_run (sep := isStop) ws ws' (takeWhile_not (l :: ls))).append (saying_retold ws ws' n _ hlen)
      rwa [List.takeWhile_append_dropWhile] at this

theorem segments_flatten {α : Type} (ls : List α) : ∀ (ends : List Nat) (b : Nat), (b :: ends).Pairwise (· ≤ ·) →
    (b :: ends).getLast? = some ls.length → (segments ls b ends).flatten = ls.drop b
  | [], b, _, h => by
    have : b = ls.length := by simpa using h
    subst this
    simp [segments]
  | e :: ends, b, hp, h => by
    have hb : b ≤ e := (List.pairwise_cons.1 hp).1 e (by simp)
    rw [segments, List.flatten_cons, segments_flatten ls ends e (List.pairwise_cons.1 hp).2 (by simpa using h)]
    conv => rhs; rw [← List.take_append_drop e ls]
    rw [List.drop_append]
    congr 1
    rw [List.length_take]
    have he : e ≤ ls.length := by
      have hm : ls.length ∈ e :: ends := List.mem_of_getLast? (by simpa using h)
      rcases List.mem_cons.1 hm with hm | hm
      · omega
      · exact (List.pairwise_cons.1 (List.pairwise_cons.1 hp).2).1 _ hm
    rw [show b - min e ls.length = 0 by omega, List.drop_zero]

theorem intercalate_retold {sep : List (List Nat) → Bool} (ws ws' : List (List Nat)) (f f' : List (List (List Nat)) → List Nat)
    (h : ∀ ls, Retold sep ws ws' ls (f ls) (f' ls)) : ∀ segs : List (List (List (List Nat))),
    Retold sep ws ws' segs.flatten ([32].intercalate (segs.map f)) ([32].intercalate (segs.map f'))
  | [] => by simpa [List.intercalate] using retold_nil sep ws ws'
  | [s] => by simpa [List.intercalate] using h s
  | s :: s' :: segs => by
    have ih := intercalate_retold ws ws' f f' h (s' :: segs)
    have := ((h s).append (retold_same sep ws ws' [] [32])).append ih
    simpa [List.intercalate, List.intersperse] using this

/-! ### Dictionaries that agree on what can be spelled -/

/-- The dictionaries agree on the words made of characters of the candidates. -/
def AgreeOn (ws ws' : List (List Nat)) (chars : Nat → Prop) : Prop := ∀ w, (∀ c ∈ w, chars c) → (w ∈ ws ↔ w ∈ ws')

theorem choices_chars {chars : Nat → Prop} : ∀ (run : List (List (List Nat))), (∀ l ∈ run, ∀ w ∈ l, ∀ c ∈ w, chars c) →
    ∀ ch ∈ choices run, ∀ w ∈ ch, ∀ c ∈ w, chars c
  | [], _, ch, hc => by
    have : ch = [] := by simpa [choices] using hc
    subst this
    simp
  | l :: run, h, ch, hc => by
    rw [choices] at hc
    obtain ⟨w, hw, hc⟩ := List.mem_flatMap.1 hc
    obtain ⟨ch', h', rfl⟩ := List.mem_map.1 hc
    intro v hv
    rcases List.mem_cons.1 hv with rfl | hv
    · exact h l (by simp) v hw
    · exact choices_chars run (fun l hl => h l (by simp [hl])) ch' h' v hv

theorem spellCut_chars {chars : Nat → Prop} : ∀ ch : List (List Nat), (∀ w ∈ ch, ∀ c ∈ w, chars c) → ∀ c ∈ spellCut ch, chars c
  | [], _, c, hc => by cases hc
  | [w], h, c, hc => h w (by simp) c (List.mem_of_mem_take hc)
  | w :: v :: ch, h, c, hc => by
    rcases List.mem_append.1 hc with hc | hc
    · exact h w (by simp) c hc
    · exact spellCut_chars (v :: ch) (fun x hx => h x (by simp [hx])) c hc

theorem runText_agree {ws ws' : List (List Nat)} {chars : Nat → Prop} (h : AgreeOn ws ws' chars) {run : List (List (List Nat))}
    (hr : ∀ l ∈ run, ∀ w ∈ l, ∀ c ∈ w, chars c) : runText ws run = runText ws' run := by
  have : preferred spellCut ws run = preferred spellCut ws' run := by
    unfold preferred
    have hh : ∀ ch ∈ choices run, decide (spellCut ch ∈ ws) = decide (spellCut ch ∈ ws') := fun ch hc =>
      decide_eq_decide.2 (h _ (spellCut_chars ch (choices_chars run hr ch hc)))
    generalize choices run = cs at hh
    induction cs with
    | nil => rfl
    | cons c cs ih =>
      rw [List.find?_cons, List.find?_cons, hh c (by simp), ih fun x hx => hh x (by simp [hx])]
  unfold runText
  rw [this]

theorem segText_agree {ws ws' : List (List Nat)} {chars : Nat → Prop} (h : AgreeOn ws ws' chars) :
    ∀ (n : Nat) (ls : List (List (List Nat))), ls.length ≤ n → (∀ l ∈ ls, ∀ w ∈ l, ∀ c ∈ w, chars c) → segText ws ls = segText ws' ls
  | _, [], _, _ => by rw [segText, segText]
  | 0, _ :: _, hn, _ => by simp at hn
  | n + 1, l :: ls, hn, hc => by
    rw [segText, segText]
    by_cases hl : isSep l = true
    · rw [dif_pos hl, dif_pos hl, segText_agree h n ls (by simpa using hn) fun x hx => hc x (by simp [hx])]
    · rw [dif_neg hl, dif_neg hl]
      have hlen : ((l :: ls).dropWhile (!isSep ·)).length ≤ n := by
        rw [List.dropWhile_cons_of_pos (by simpa using hl)]
        have := (List.dropWhile_sublist (l := ls) (!isSep ·)).length_le
        simp only [List.length_cons] at hn
        omega
      rw [runText_agree h fun x hx => hc x ((List.takeWhile_sublist _).subset hx),
        segText_agree h n _ hlen fun x hx => hc x ((List.dropWhile_sublist _).subset hx)]

theorem saying_agree {ws ws' : List (List Nat)} {chars : Nat → Prop} (h : AgreeOn ws ws' chars) :
    ∀ (n : Nat) (ls : List (List (List Nat))), ls.length ≤ n → (∀ l ∈ ls, ∀ w ∈ l, ∀ c ∈ w, chars c) → saying ws ls = saying ws' ls
  | _, [], _, _ => by rw [saying, saying]
  | 0, _ :: _, hn, _ => by simp at hn
  | n + 1, l :: ls, hn, hc => by
    rw [saying, saying]
    by_cases hl : isStop l = true
    · rw [dif_pos hl, dif_pos hl, saying_agree h n ls (by simpa using hn) fun x hx => hc x (by simp [hx])]
    · rw [dif_neg hl, dif_neg hl]
      have hlen : ((l :: ls).dropWhile (!isStop ·)).length ≤ n := by
        rw [List.dropWhile_cons_of_pos (by simpa using hl)]
        have := (List.dropWhile_sublist (l := ls) (!isStop ·)).length_le
        simp only [List.length_cons] at hn
        omega
      rw [runText_agree h fun x hx => hc x ((List.takeWhile_sublist _).subset hx),
        saying_agree h n _ hlen fun x hx => hc x ((List.dropWhile_sublist _).subset hx)]

end Ppocr.Spec

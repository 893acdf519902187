import Verif.Proofs.Replace

/-! # C45 and C59: replacements -/

namespace Ppocr.Props
open Ppocr Spec

/-- **C45** as stated: `replace_words` returns, and the last pattern does not occur in what it returns. -/
def C45_statement : Prop :=
  ∀ (s : List Nat) (reps : List Rep), ∃ fuel o, replaceWords fuel s reps = .ok o ∧
    ∀ rep, reps.getLast? = some rep → ¬ rep.pattern <:+: o

/-- When one replacement returns: its pattern is not empty, and not both in the text and in the replacement. -/
theorem C45_returns (rep : Rep) (s : List Nat) :
    (∃ fuel o, replaceLoop rep fuel s 0 = .ok o) ↔
      rep.pattern ≠ [] ∧ ¬ (rep.pattern <:+: s ∧ rep.pattern <:+: rep.replace) := by
  constructor
  · rintro ⟨fuel, o, h⟩
    constructor
    · intro hp
      have := replaceLoop_endless (rep := rep) (by rw [hp]; exact List.nil_infix) fuel [] s (by rw [hp]; exact List.nil_infix)
      simp only [List.nil_append, List.length_nil] at this
      rw [this] at h; cases h
    · rintro ⟨h1, h2⟩
      have := replaceLoop_endless h2 fuel [] s h1
      simp only [List.nil_append, List.length_nil] at this
      rw [this] at h; cases h
  · rintro ⟨hp, hn⟩
    rcases findSub_cases rep.pattern s with ⟨hs, _⟩ | ⟨a, b, hs, hf⟩
    · exact ⟨1, _, replaceLoop_stop (rep := rep) hs 0 []⟩
    · obtain ⟨o, ho⟩ := replaceLoop_ends (rep := rep) (fun h => hn ⟨⟨a, b, hf.1.symm⟩, h⟩) b.length b (Nat.le_refl _) a
      refine ⟨b.length + 2, o, ?_⟩
      have := replaceLoop_step (rep := rep) hf hs (b.length + 1) []
      simp only [List.nil_append, List.length_nil] at this
      rw [this, ho]

/-- C45 is false: a pattern in its own replacement is replaced for ever. -/
theorem C45_endless : ¬ C45_statement := by
  intro h
  obtain ⟨fuel, o, h, _⟩ := h [97] [⟨[97], [97]⟩]
  rw [replaceWords] at h
  obtain ⟨s', e, -⟩ := Res.bind_eq_ok.1 h
  exact ((C45_returns _ _).1 ⟨_, _, e⟩).2 ⟨List.infix_refl _, List.infix_refl _⟩

/-- The other part is false as well: `aabb` without `ab` becomes `ab`. -/
theorem C45_remains : ∀ fuel, replaceWords (fuel + 2) [97, 97, 98, 98] [⟨[97, 98], []⟩] = .ok [97, 98] := by
  intro fuel
  rfl

/-- The texts after each replacement. -/
inductive Chain : List Rep → List Nat → List Nat → Prop
  | nil (s : List Nat) : Chain [] s s
  | cons (rep : Rep) (reps : List Rep) (s m o : List Nat) : Rewritten rep.pattern rep.replace s m → Chain reps m o →
      Chain (rep :: reps) s o

/-- What is returned, for every text and all replacements: each pattern in its turn is rewritten from left to right, the
replacement being searched again with what follows it; a result is never anything else. -/
theorem C45_exact (reps : List Rep) : ∀ (s o : List Nat) (fuel : Nat), replaceWords fuel s reps = .ok o →
    Chain reps s o := by
  induction reps with
  | nil => intro s o fuel h; cases h; exact .nil s
  | cons rep reps ih =>
    intro s o fuel h
    rw [replaceWords] at h
    obtain ⟨m, e, h⟩ := Res.bind_eq_ok.1 h
    obtain ⟨m', rfl, hm⟩ := replaceLoop_rewritten fuel [] s m e
    exact .cons rep reps s _ o hm (ih _ _ _ h)

theorem chain_last {reps : List Rep} {s o : List Nat} (h : Chain reps s o) (rep : Rep) (hl : reps.getLast? = some rep) :
    ∃ m, Rewritten rep.pattern rep.replace m o := by
  induction h with
  | nil => simp at hl
  | cons r reps s m o hr hc ih =>
    cases reps with
    | nil =>
      simp only [List.getLast?_singleton, Option.some.injEq] at hl
      subst hl
      cases hc
      exact ⟨s, hr⟩
    | cons r' reps => exact ih (by rw [List.getLast?_cons_cons] at hl; exact hl)

/-- **C45**, what holds: with patterns that are not empty and not in their own replacements every text is returned; and
when no end of the last pattern and its replacement begin alike, the last pattern does not occur any more. Missing: other
replacements, for which it is false. -/
theorem C45_words_partial (reps : List Rep) (hok : ∀ rep ∈ reps, rep.pattern ≠ [] ∧ ¬ rep.pattern <:+: rep.replace)
    (s : List Nat) :
    ∃ fuel o, replaceWords fuel s reps = .ok o ∧
      ∀ rep, reps.getLast? = some rep → NoLeft rep.pattern rep.replace → ¬ rep.pattern <:+: o := by
  have h1 : ∃ fuel o, replaceWords fuel s reps = .ok o := by
    induction reps generalizing s with
    | nil => exact ⟨0, s, rfl⟩
    | cons rep reps ih =>
      obtain ⟨hp, hn⟩ := hok rep (by simp)
      obtain ⟨f, m, hm⟩ := (C45_returns rep s).2 ⟨hp, fun h => hn h.2⟩
      obtain ⟨f', o, ho⟩ := ih (fun r hr => hok r (by simp [hr])) m
      refine ⟨max f f', o, ?_⟩
      rw [replaceWords, replaceLoop_mono _ _ _ _ _ hm (Nat.le_max_left _ _), Res.ok_bind]
      exact replaceWords_mono (Nat.le_max_right _ _) _ _ _ ho
  obtain ⟨fuel, o, ho⟩ := h1
  refine ⟨fuel, o, ho, ?_⟩
  intro rep hl hno
  obtain ⟨m, hm⟩ := chain_last (C45_exact reps s o fuel ho) rep hl
  have := rewritten_clean (hok rep (List.mem_of_getLast? hl)).1 hno hm [] (by simp)
  simpa using this

/-- A pattern of one byte never remains. -/
theorem C45_one_byte (c : Nat) (r : List Nat) : NoLeft [c] r := by
  intro x y e hx hy
  have := congrArg List.length e
  have h1 := List.length_pos_iff.2 hx
  have h2 := List.length_pos_iff.2 hy
  simp only [List.length_append, List.length_cons, List.length_nil] at this
  omega

theorem replaced_exists {p : List Nat} (hp : p ≠ []) (r : List Nat) : ∀ (n : Nat) (s : List Nat), s.length ≤ n →
    ∃ o, Replaced p r s o := by
  intro n
  induction n with
  | zero =>
    intro s hs
    have : s = [] := List.length_eq_zero_iff.1 (by omega)
    exact ⟨s, .none s (by rw [this]; exact fun h => hp (List.infix_nil.1 h))⟩
  | succ n ih =>
    intro s hs
    rcases findSub_cases p s with ⟨_, hn⟩ | ⟨a, b, _, hf⟩
    · exact ⟨s, .none s hn⟩
    · have h1 := congrArg List.length hf.1
      have h2 := List.length_pos_iff.2 hp
      simp only [List.length_append] at h1
      obtain ⟨o, ho⟩ := ih b (by omega)
      exact ⟨_, .next s a b o hf ho⟩

/-- With a replacement of which no end begins the pattern, the result is the textbook one: each occurrence, from left to
right, replaced once. -/
theorem C45_textbook (rep : Rep) (hr : NoRight rep.pattern rep.replace) (s o : List Nat) (fuel : Nat)
    (h : replaceLoop rep fuel s 0 = .ok o) : Replaced rep.pattern rep.replace s o := by
  have hp := ((C45_returns rep s).1 ⟨_, _, h⟩).1
  obtain ⟨q, hq⟩ := replaced_exists hp rep.replace s.length s (Nat.le_refl _)
  obtain ⟨o', rfl, ho⟩ := replaceLoop_rewritten fuel [] s o h
  have : o = q := by
    apply rewritten_unique ho
    cases hq with
    | none _ hn => exact .none s hn
    | next _ a b o hf hb =>
      rw [List.append_assoc]
      exact .next s a b _ hf (replaced_rewritten hr hb)
  rw [this]; exact hq

/-- `caab` with `a` for `bb`, then `bc` away from the result `cbbbbb`. -/
example : replaceWords 9 [99, 97, 97, 98] [⟨[97], [98, 98]⟩, ⟨[98, 99], []⟩] = .ok [99, 98, 98, 98, 98, 98] := by decide

/-- `NoLeft` and `NoRight` hold for `ab` and `c`. -/
example : NoLeft [97, 98] [99] ∧ NoRight [97, 98] [99] := by
  have key : ∀ x y : List Nat, [97, 98] = x ++ y → x ≠ [] → y ≠ [] → x = [97] ∧ y = [98] := by
    intro x y h hx hy
    match x, y, h with
    | [], _, _ => exact absurd rfl hx
    | [a], y, h => simp only [List.cons_append, List.nil_append, List.cons.injEq] at h; exact ⟨by rw [h.1], h.2.symm⟩
    | [a, b], [], _ => exact absurd rfl hy
    | [a, b], d :: y, h => simp at h
    | a :: b :: c :: x, y, h => simp at h
  refine ⟨?_, by decide, ?_⟩
  · intro x y h hx hy
    obtain ⟨rfl, rfl⟩ := key x y h hx hy
    decide
  · intro x y h hx hy
    obtain ⟨rfl, rfl⟩ := key x y h hx hy
    decide

/-! ## The reader -/

/-- **C59**: every file is read to its end, giving the entries of the grammar in order behind those already there. -/
theorem C59_reader (t : List Nat) (acc : List Rep) : ∃ reps, RepText isSpace [] reps t ∧
    readReplacements (IS.of t) acc = .ok (acc ++ reps.map fun q => ⟨q.1, q.2⟩, ⟨[], true, true, true⟩) ∧
    ∀ q ∈ reps, q.1 ≠ [] := by
  obtain ⟨reps, h⟩ := repText_total t.length t (Nat.le_refl _) []
  exact ⟨reps, h, readReps_ok h _ false [] acc (Nat.le_refl _) (by simp), fun q hq => (repText_words h q hq).1⟩

/-- The grammar is unambiguous. -/
theorem C59_unique (t : List Nat) (reps reps' : List (List Nat × List Nat)) (h : RepText isSpace [] reps t)
    (h' : RepText isSpace [] reps' t) : reps = reps' := by
  have e := readReps_ok h _ false [] [] (Nat.le_refl _) (by simp)
  rw [readReps_ok h' _ false [] [] (Nat.le_refl _) (by simp)] at e
  simp only [Res.ok.injEq, Prod.mk.injEq, List.nil_append, and_true] at e
  have hi : Function.Injective (fun q : List Nat × List Nat => (⟨q.1, q.2⟩ : Rep)) := by
    rintro ⟨a, b⟩ ⟨c, d⟩ h
    simp only [Rep.mk.injEq] at h
    rw [h.1, h.2]
  exact (List.map_inj_right (fun _ _ h => hi h)).1 e.symm

/-- A line of a file: the pattern, and its replacement behind a blank unless it is empty. -/
def repLine (q : List Nat × List Nat) : List Nat := q.1 ++ (if q.2 = [] then [] else 32 :: q.2) ++ [10]

theorem repLines_text : ∀ (reps : List (List Nat × List Nat)),
    (∀ q ∈ reps, q.1 ≠ [] ∧ (∀ c ∈ q.1, isSpace c = false) ∧ ∀ c ∈ q.2, isSpace c = false) → ∀ (ws prev : List Nat),
    (∀ c ∈ ws, isSpace c = true) → RepText isSpace prev reps (ws ++ reps.flatMap repLine) := by
  intro reps
  induction reps with
  | nil => intro _ ws prev hw; simpa using RepText.blank prev ws hw
  | cons q reps ih =>
    intro h ws prev hw
    obtain ⟨p, r⟩ := q
    obtain ⟨hp, hps, hrs⟩ := h (p, r) (by simp)
    have ih' := ih (fun q hq => h q (by simp [hq])) [10]
    by_cases hr : r = []
    · subst hr
      have := RepText.bare prev ws p (reps.flatMap repLine) reps hw hp hps (ih' [] (by intro c hc; simp at hc; subst hc; rfl))
      simpa [repLine] using this
    · have := RepText.pair prev ws p [32] r (10 :: reps.flatMap repLine) reps hw hp hps (by simp) (by simp)
        (by intro c hc; simp at hc; subst hc; rfl) hr hrs (by intro c hc; cases hc; rfl)
        (ih' r (by intro c hc; simp at hc; subst hc; rfl))
      simpa [repLine, hr] using this

/-- A file of such lines reads back. -/
theorem C59_round_trip (reps : List (List Nat × List Nat))
    (h : ∀ q ∈ reps, q.1 ≠ [] ∧ (∀ c ∈ q.1, isSpace c = false) ∧ ∀ c ∈ q.2, isSpace c = false) (acc : List Rep) :
    readReplacements (IS.of (reps.flatMap repLine)) acc =
      .ok (acc ++ reps.map fun q => ⟨q.1, q.2⟩, ⟨[], true, true, true⟩) :=
  readReps_ok (repLines_text reps h [] [] (by simp)) _ false [] acc (Nat.le_refl _) (by simp)

/-- Without the newline at the end, a last line that only has a pattern gets the replacement of the line before; with a
blank behind it, it is lost; in the middle, it takes the pattern of the next line for its replacement. -/
theorem C59_last_line :
    readReplacements (IS.of [97, 32, 98, 10, 99]) [] = .ok ([⟨[97], [98]⟩, ⟨[99], [98]⟩], ⟨[], true, true, true⟩) ∧
    readReplacements (IS.of [97, 32, 98, 10, 99, 32, 10]) [] = .ok ([⟨[97], [98]⟩], ⟨[], true, true, true⟩) ∧
    readReplacements (IS.of [99, 32, 10, 97, 32, 98, 10]) [] = .ok ([⟨[99], [97]⟩, ⟨[98], []⟩], ⟨[], true, true, true⟩) := by
  decide

/-- `a b`, `c`, `de f`. -/
example : readReplacements (IS.of [97, 32, 98, 10, 99, 10, 100, 101, 9, 102, 10]) [] =
    .ok ([⟨[97], [98]⟩, ⟨[99], []⟩, ⟨[100, 101], [102]⟩], ⟨[], true, true, true⟩) := by decide

end Ppocr.Props

import Verif.Model.Stream

/-! # Reading what was written -/

namespace Ppocr

theorem decVal_append (a : List Nat) (c : Nat) : decVal (a ++ [c]) = decVal a * 10 + (c - 48) := by
  simp [decVal]

theorem decAux_spec : ∀ (f n : Nat), n ≤ f → decVal (decAux f n) = n ∧ (∀ c ∈ decAux f n, isDec c = true) ∧
    decAux f n ≠ []
  | 0, n, h => by
    have : n = 0 := by omega
    subst this
    exact ⟨rfl, by decide, by simp [decAux]⟩
  | f + 1, n, h => by
    unfold decAux
    by_cases hn : n < 10
    · rw [if_pos hn]
      refine ⟨?_, ?_, by simp⟩
      · simp [decVal]
      · intro c hc
        simp only [List.mem_singleton] at hc
        subst hc
        simp [isDec]
        omega
    · rw [if_neg hn]
      obtain ⟨h1, h2, h3⟩ := decAux_spec f (n / 10) (by omega)
      refine ⟨?_, ?_, by simp⟩
      · rw [decVal_append, h1]
        omega
      · intro c hc
        rcases List.mem_append.1 hc with hc | hc
        · exact h2 c hc
        · simp only [List.mem_singleton] at hc
          subst hc
          simp [isDec]
          omega

theorem showNat_val (n : Nat) : decVal (showNat n) = n := (decAux_spec n n (Nat.le_refl n)).1
theorem showNat_dec (n : Nat) : ∀ c ∈ showNat n, isDec c = true := (decAux_spec n n (Nat.le_refl n)).2.1
theorem showNat_ne (n : Nat) : showNat n ≠ [] := (decAux_spec n n (Nat.le_refl n)).2.2

theorem isDec_iff {c : Nat} : isDec c = true ↔ 48 ≤ c ∧ c ≤ 57 := by simp [isDec]

theorem isSpace_of_dec {c : Nat} (h : isDec c = true) : isSpace c = false := by
  rw [isDec_iff] at h
  simp only [isSpace, Bool.or_eq_false_iff, beq_eq_false_iff_ne, Bool.and_eq_false_iff,
    decide_eq_false_iff_not]
  omega

theorem dropWhile_prefix {p : Nat → Bool} : ∀ {a b : List Nat}, (∀ c ∈ a, p c = true) →
    (∀ c t, b = c :: t → p c = false) → (a ++ b).dropWhile p = b ∧ (a ++ b).takeWhile p = a
  | [], [], _, _ => ⟨rfl, rfl⟩
  | [], c :: t, _, h => by simp [h c t rfl]
  | c :: a, b, h1, h2 => by
    obtain ⟨e1, e2⟩ := dropWhile_prefix (a := a) (b := b) (fun d hd => h1 d (by simp [hd])) h2
    simp [h1 c (by simp), e1, e2]

/-- The sentry of an extraction after blanks. -/
theorem sentry_skip {p b : List Nat} {ws : Bool} (hp : ∀ c ∈ p, isSpace c = true) (hw : p ≠ [] → ws = true)
    (hb : b ≠ []) (hb' : ∀ c t, b = c :: t → isSpace c = false) :
    IS.sentry ⟨p ++ b, false, false, ws⟩ false = (⟨b, false, false, ws⟩, true) := by
  unfold IS.sentry IS.good
  simp only [Bool.not_false, Bool.and_self, Bool.not_true, Bool.false_eq_true, if_false, Bool.and_true]
  cases ws with
  | true =>
    rw [if_pos rfl, (dropWhile_prefix hp hb').1]
    cases b with
    | nil => exact absurd rfl hb
    | cons c t => rfl
  | false =>
    have : p = [] := by
      cases p with
      | nil => rfl
      | cons c t => exact absurd (hw (by simp)) (by simp)
    subst this
    rfl

theorem showNat_cons (n : Nat) : ∃ c t, showNat n = c :: t ∧ isDec c = true := by
  cases h : showNat n with
  | nil => exact absurd h (showNat_ne n)
  | cons c t => exact ⟨c, t, rfl, showNat_dec n c (by rw [h]; simp)⟩

theorem parseSign_dec {c : Nat} {t : List Nat} (h : isDec c = true) : parseSign (c :: t) = (false, c :: t) := by
  rw [isDec_iff] at h
  simp only [parseSign]
  rw [if_neg (by omega), if_neg (by omega)]

/-- Reading a number that was written: blanks before it are skipped, what follows must not be a digit. -/
theorem uint_show {max n old : Nat} {p r : List Nat} {ws : Bool} (hn : n ≤ max)
    (hp : ∀ c ∈ p, isSpace c = true) (hw : p ≠ [] → ws = true) (hr : ∀ c t, r = c :: t → isDec c = false) :
    IS.uint max ⟨p ++ (showNat n ++ r), false, false, ws⟩ old = (n, ⟨r, r.isEmpty, false, ws⟩) := by
  obtain ⟨c, t, e, hc⟩ := showNat_cons n
  unfold IS.uint
  rw [sentry_skip hp hw (by rw [e]; simp) (by
    intro c' t' h
    rw [e, List.cons_append, List.cons.injEq] at h
    rw [← h.1]
    exact isSpace_of_dec hc)]
  simp only []
  obtain ⟨e1, e2⟩ := dropWhile_prefix (showNat_dec n) hr
  have e3 : parseSign (showNat n ++ r) = (false, showNat n ++ r) := by
    rw [e, List.cons_append]
    exact parseSign_dec hc
  rw [e3]
  simp only [e1, e2, showNat_val]
  rw [if_neg (by simpa using showNat_ne n), if_neg (by omega)]
  rfl

theorem bool_show {b old : Bool} {p r : List Nat} {ws : Bool}
    (hp : ∀ c ∈ p, isSpace c = true) (hw : p ≠ [] → ws = true) (hr : ∀ c t, r = c :: t → isDec c = false) :
    IS.bool ⟨p ++ (showBool b ++ r), false, false, ws⟩ old = (b, ⟨r, r.isEmpty, false, ws⟩) := by
  have hd : ∀ c ∈ showBool b, isDec c = true := by cases b <;> decide
  obtain ⟨e1, e2⟩ := dropWhile_prefix hd hr
  unfold IS.bool
  rw [sentry_skip hp hw (by cases b <;> simp [showBool]) (by
    intro c' t' h
    cases b <;> simp [showBool] at h <;> rw [← h.1] <;> decide)]
  simp only []
  have e3 : parseSign (showBool b ++ r) = (false, showBool b ++ r) := by cases b <;> rfl
  rw [e3]
  simp only [e1, e2]
  cases b <;> rfl

/-- Reading one byte without skipping. -/
theorem char_cons {c old : Nat} {r : List Nat} :
    IS.char ⟨c :: r, false, false, false⟩ old = (c, ⟨r, false, false, false⟩) := rfl

/-- Reading a word that was written. -/
theorem str_show {w old p r : List Nat} {ws : Bool} (hne : w ≠ []) (hnw : ∀ c ∈ w, isSpace c = false)
    (hp : ∀ c ∈ p, isSpace c = true) (hw : p ≠ [] → ws = true) (hr : ∀ c t, r = c :: t → isSpace c = true) :
    IS.str ⟨p ++ (w ++ r), false, false, ws⟩ old = (w, ⟨r, r.isEmpty, false, ws⟩) := by
  obtain ⟨e1, e2⟩ := dropWhile_prefix (p := fun c => !isSpace c) (a := w) (b := r)
    (fun c hc => by simp [hnw c hc]) (fun c t h => by simp [hr c t h])
  unfold IS.str
  rw [sentry_skip hp hw (by simp [hne]) (by
    intro c' t' h
    cases w with
    | nil => exact absurd rfl hne
    | cons c t =>
      rw [List.cons_append, List.cons.injEq] at h
      rw [← h.1]
      exact hnw c (by simp))]
  simp only [e1, e2]
  cases w with
  | nil => exact absurd rfl hne
  | cons c t => rfl

end Ppocr

import Verif.Model.Replace
import Verif.Spec.Replace

/-! # Lemmas on replacements -/

namespace Ppocr
open Spec

theorem firstIn_cons {p t a b : List Nat} {c : Nat} (h : FirstIn p t a b) (hc : ¬ p <+: c :: t) :
    FirstIn p (c :: t) (c :: a) b := by
  refine ⟨by rw [h.1]; rfl, ?_⟩
  intro a' b' e
  cases a' with
  | nil => exact absurd ⟨b', by rw [e]; rfl⟩ hc
  | cons d a' =>
    simp only [List.cons_append, List.cons.injEq] at e
    have := h.2 a' b' (by rw [e.2])
    simp only [List.length_cons]; omega

theorem findSub_some {p : List Nat} : ∀ {t : List Nat} {k : Nat}, findSub p t = some k →
    ∃ a b, FirstIn p t a b ∧ a.length = k := by
  intro t
  induction t with
  | nil =>
    intro k h
    simp only [findSub] at h
    split at h
    · next hp =>
      simp only [Option.some.injEq] at h
      refine ⟨[], [], ⟨by simp at hp; simp [hp], fun _ _ _ => Nat.zero_le _⟩, h⟩
    · cases h
  | cons c t ih =>
    intro k h
    simp only [findSub] at h
    split at h
    · next hp =>
      simp only [Option.some.injEq] at h
      obtain ⟨b, hb⟩ := List.isPrefixOf_iff_prefix.1 hp
      exact ⟨[], b, ⟨by simp [hb], fun _ _ _ => Nat.zero_le _⟩, h⟩
    · next hp =>
      rw [List.isPrefixOf_iff_prefix] at hp
      obtain ⟨j, hj, rfl⟩ := Option.map_eq_some_iff.1 h
      obtain ⟨a, b, hf, rfl⟩ := ih hj
      exact ⟨c :: a, b, firstIn_cons hf hp, rfl⟩

theorem findSub_none {p : List Nat} : ∀ {t : List Nat}, findSub p t = none → ¬ p <:+: t := by
  intro t
  induction t with
  | nil =>
    intro h
    simp only [findSub] at h
    split at h
    · cases h
    · next hp => intro hi; simp at hp; exact hp (List.infix_nil.1 hi)
  | cons c t ih =>
    intro h
    simp only [findSub] at h
    split at h
    · cases h
    · next hp =>
      rw [List.isPrefixOf_iff_prefix] at hp
      rw [Option.map_eq_none_iff] at h
      rw [List.infix_cons_iff]
      rintro (hi | hi)
      · exact hp hi
      · exact ih h hi

theorem findSub_cases (p t : List Nat) : (findSub p t = none ∧ ¬ p <:+: t) ∨
    ∃ a b, findSub p t = some a.length ∧ FirstIn p t a b := by
  cases h : findSub p t with
  | none => exact .inl ⟨rfl, findSub_none h⟩
  | some k =>
    obtain ⟨a, b, hf, rfl⟩ := findSub_some h
    exact .inr ⟨a, b, rfl, hf⟩

theorem strFind_append (out t p : List Nat) : strFind (out ++ t) p out.length =
    (findSub p t).map (out.length + ·) := by
  rw [strFind, if_pos (by simp), List.drop_left]

/-- One pass. -/
theorem replaceLoop_step {rep : Rep} {t a b : List Nat} (hf : FirstIn rep.pattern t a b)
    (hs : findSub rep.pattern t = some a.length) (fuel : Nat) (out : List Nat) :
    replaceLoop rep (fuel + 1) (out ++ t) out.length =
      replaceLoop rep fuel ((out ++ a) ++ (rep.replace ++ b)) (out ++ a).length := by
  rw [replaceLoop, strFind_append, hs]
  simp only [Option.map_some]
  rw [strReplace, if_pos (by rw [hf.1]; simp)]
  simp only [Res.ok_bind]
  have h1 : (out ++ t).take (out.length + a.length) = out ++ a := by
    rw [hf.1, List.take_length_add_append, List.append_assoc, List.take_left]
  have h2 : (out ++ t).drop (out.length + a.length + rep.pattern.length) = b := by
    rw [hf.1, Nat.add_assoc, List.drop_length_add_append, ← List.length_append, List.drop_left]
  rw [h1, h2, List.length_append, List.append_assoc, List.append_assoc]

theorem replaceLoop_stop {rep : Rep} {t : List Nat} (hs : findSub rep.pattern t = none) (fuel : Nat) (out : List Nat) :
    replaceLoop rep (fuel + 1) (out ++ t) out.length = .ok (out ++ t) := by
  rw [replaceLoop, strFind_append, hs]; rfl

/-- What is returned is the rewritten text. -/
theorem replaceLoop_rewritten {rep : Rep} : ∀ (fuel : Nat) (out t o : List Nat),
    replaceLoop rep fuel (out ++ t) out.length = .ok o → ∃ o', o = out ++ o' ∧ Rewritten rep.pattern rep.replace t o' := by
  intro fuel
  induction fuel with
  | zero => intro out t o h; cases h
  | succ fuel ih =>
    intro out t o h
    rcases findSub_cases rep.pattern t with ⟨hs, hn⟩ | ⟨a, b, hs, hf⟩
    · rw [replaceLoop_stop hs] at h
      cases h
      exact ⟨t, rfl, .none t hn⟩
    · rw [replaceLoop_step hf hs] at h
      obtain ⟨o', rfl, hr⟩ := ih _ _ _ h
      exact ⟨a ++ o', by simp, .next t a b o' hf hr⟩

/-- An occurrence in `r ++ b`, when there is none in `r`, ends inside `b`. -/
theorem firstIn_shorter {p r b a c : List Nat} (hr : ¬ p <:+: r) (h : r ++ b = a ++ p ++ c) : c.length < b.length := by
  apply Nat.lt_of_not_le
  intro hle
  apply hr
  have h1 : (r ++ b).length = (a ++ p ++ c).length := by rw [h]
  simp only [List.length_append] at h1
  have h2 : r = (a ++ p) ++ (r.drop (a ++ p).length) := by
    have : (r ++ b).take (a ++ p).length = a ++ p := by rw [h, List.take_left]
    rw [List.take_append_of_le_length (by simp; omega)] at this
    rw [← this, List.length_take, Nat.min_eq_left (by simp; omega), List.take_append_drop]
  exact ⟨a, r.drop (a ++ p).length, h2.symm⟩

theorem replaceLoop_ends {rep : Rep} (hr : ¬ rep.pattern <:+: rep.replace) : ∀ (n : Nat) (b : List Nat),
    b.length ≤ n → ∀ out, ∃ o, replaceLoop rep (n + 1) (out ++ (rep.replace ++ b)) out.length = .ok o := by
  intro n
  induction n with
  | zero =>
    intro b hb out
    rcases findSub_cases rep.pattern (rep.replace ++ b) with ⟨hs, _⟩ | ⟨a, c, hs, hf⟩
    · exact ⟨_, replaceLoop_stop hs _ _⟩
    · have := firstIn_shorter hr hf.1
      omega
  | succ n ih =>
    intro b hb out
    rcases findSub_cases rep.pattern (rep.replace ++ b) with ⟨hs, _⟩ | ⟨a, c, hs, hf⟩
    · exact ⟨_, replaceLoop_stop hs _ _⟩
    · have := firstIn_shorter hr hf.1
      rw [replaceLoop_step hf hs]
      exact ih c (by omega) _

theorem replaceLoop_mono {rep : Rep} : ∀ (f f' : Nat) (s : List Nat) (pos : Nat) (o : List Nat),
    replaceLoop rep f s pos = .ok o → f ≤ f' → replaceLoop rep f' s pos = .ok o := by
  intro f
  induction f with
  | zero => intro f' s pos o h; cases h
  | succ f ih =>
    intro f' s pos o h hle
    obtain ⟨g, rfl⟩ : ∃ g, f' = g + 1 := ⟨f' - 1, by omega⟩
    rw [replaceLoop] at h ⊢
    split at h
    · exact h
    · next q hq =>
      obtain ⟨s', e, h⟩ := Res.bind_eq_ok.1 h
      rw [e, Res.ok_bind]
      exact ih g s' q o h (by omega)

theorem replaceWords_mono {f f' : Nat} (hle : f ≤ f') : ∀ (reps : List Rep) (s o : List Nat),
    replaceWords f s reps = .ok o → replaceWords f' s reps = .ok o := by
  intro reps
  induction reps with
  | nil => intro s o h; exact h
  | cons rep reps ih =>
    intro s o h
    rw [replaceWords] at h ⊢
    obtain ⟨s', e, h⟩ := Res.bind_eq_ok.1 h
    rw [replaceLoop_mono _ _ _ _ _ e hle, Res.ok_bind]
    exact ih s' o h

/-- Endless: the pattern is in its own replacement. -/
theorem replaceLoop_endless {rep : Rep} (hr : rep.pattern <:+: rep.replace) : ∀ (fuel : Nat) (out t : List Nat),
    rep.pattern <:+: t → replaceLoop rep fuel (out ++ t) out.length = .diverge := by
  intro fuel
  induction fuel with
  | zero => intro out t _; rfl
  | succ fuel ih =>
    intro out t ht
    rcases findSub_cases rep.pattern t with ⟨_, hn⟩ | ⟨a, b, hs, hf⟩
    · exact absurd ht hn
    · rw [replaceLoop_step hf hs]
      exact ih _ _ (hr.trans (List.infix_append' [] _ _))

/-- What is rewritten has no new occurrence with what is before it. -/
theorem rewritten_clean {p r : List Nat} (hp : p ≠ []) (hl : NoLeft p r) {t o : List Nat} (h : Rewritten p r t o) :
    ∀ out, (∀ u v, out ++ t = u ++ p ++ v → out.length ≤ u.length) → ¬ p <:+: out ++ o := by
  induction h with
  | none t hn =>
    rintro out ho ⟨u, v, e⟩
    have h1 := ho u v e.symm
    apply hn
    refine ⟨u.drop out.length, v, ?_⟩
    have h2 := congrArg (List.drop out.length) e
    rwa [List.drop_left, List.append_assoc, List.drop_append_of_le_length h1, ← List.append_assoc] at h2
  | next t a b o hf _ ih =>
    intro out ho
    rw [← List.append_assoc]
    apply ih
    intro u v e
    apply Nat.le_of_not_lt
    intro hlt
    by_cases hend : u.length + p.length ≤ (out ++ a).length
    · -- inside what was there before
      have h2 : out ++ a = u ++ p ++ (out ++ a).drop (u ++ p).length := by
        have := congrArg (List.take (u ++ p).length) e
        rw [List.take_left, List.take_append_of_le_length (by rw [List.length_append]; exact hend)] at this
        conv => lhs; rw [← List.take_append_drop (u ++ p).length (out ++ a), this]
      obtain ⟨w, hw⟩ : ∃ w, out ++ a = u ++ p ++ w := ⟨_, h2⟩
      have h3 : out ++ t = u ++ p ++ (w ++ (p ++ b)) := by
        rw [hf.1, ← List.append_assoc, ← List.append_assoc, hw]; simp
      have h4 := ho _ _ h3
      have h5 := congrArg (List.drop out.length) h3
      rw [List.drop_left, List.append_assoc, List.drop_append_of_le_length h4, ← List.append_assoc] at h5
      have h6 := hf.2 _ _ h5
      rw [List.length_drop] at h6
      have : p.length ≠ 0 := by simpa using hp
      have h7 := congrArg List.length hw
      simp only [List.length_append] at h7 hlt hend
      omega
    · -- across
      have hx : (out ++ a) ++ (r ++ b) = u ++ (p ++ v) := by rw [e, List.append_assoc]
      have h2 := congrArg (List.drop u.length) hx
      rw [List.drop_left, List.drop_append_of_le_length (by omega)] at h2
      obtain ⟨x, hxd⟩ : ∃ x, x = (out ++ a).drop u.length := ⟨_, rfl⟩
      rw [← hxd] at h2
      have hxl : x.length = (out ++ a).length - u.length := by rw [hxd, List.length_drop]
      have hpx : p = x ++ p.drop x.length := by
        have := congrArg (List.take x.length) h2
        rw [List.take_left, List.take_append_of_le_length (by omega)] at this
        conv => lhs; rw [← List.take_append_drop x.length p, ← this]
      obtain ⟨y, hyd⟩ : ∃ y, y = p.drop x.length := ⟨_, rfl⟩
      rw [← hyd] at hpx
      have hy : r ++ b = y ++ v := by
        have := congrArg (List.drop x.length) h2
        rwa [List.drop_left, List.drop_append_of_le_length (by omega), ← hyd] at this
      have hxne : x ≠ [] := by intro h0; rw [h0] at hxl; simp at hxl; simp at hlt; omega
      have hyne : y ≠ [] := by
        intro h0
        rw [h0] at hyd
        have := congrArg List.length hyd
        rw [List.length_drop] at this
        simp only [List.length_nil] at this
        omega
      obtain ⟨n1, n2⟩ := hl x y hpx hxne hyne
      have c1 : r <+: r ++ b := List.prefix_append _ _
      have c2 : y <+: r ++ b := hy ▸ List.prefix_append _ _
      rcases List.prefix_or_prefix_of_prefix c1 c2 with h | h
      · exact n2 h
      · exact n1 h

/-- An occurrence in `r ++ b` is in `b` when no end of `r` can begin it. -/
theorem noRight_infix {p r a b c : List Nat} (hr : NoRight p r) (h : r ++ b = a ++ p ++ c) : r.length ≤ a.length := by
  apply Nat.le_of_not_lt
  intro hlt
  by_cases hend : a.length + p.length ≤ r.length
  · apply hr.1
    have := congrArg (List.take (a ++ p).length) h
    rw [List.take_left, List.take_append_of_le_length (by rw [List.length_append]; exact hend)] at this
    exact ⟨a, r.drop (a ++ p).length, by rw [← this, List.length_take, Nat.min_eq_left (by simp; omega),
      List.take_append_drop]⟩
  · have h2 := congrArg (List.drop a.length) h
    rw [List.append_assoc, List.drop_left, List.drop_append_of_le_length (by omega)] at h2
    obtain ⟨x, hxd⟩ : ∃ x, x = r.drop a.length := ⟨_, rfl⟩
    rw [← hxd] at h2
    have hxl : x.length = r.length - a.length := by rw [hxd, List.length_drop]
    have hpx : p = x ++ p.drop x.length := by
      have := congrArg (List.take x.length) h2
      rw [List.take_left, List.take_append_of_le_length (by omega)] at this
      conv => lhs; rw [← List.take_append_drop x.length p, ← this]
    refine hr.2 x _ hpx ?_ ?_ ⟨r.take a.length, by rw [hxd, List.take_append_drop]⟩
    · intro h0; rw [h0] at hxl; simp at hxl; omega
    · intro h0
      have := congrArg List.length h0
      rw [List.length_drop] at this
      simp only [List.length_nil] at this
      omega

theorem noRight_first {p r a b c : List Nat} (hr : NoRight p r) (h : FirstIn p b a c) : FirstIn p (r ++ b) (r ++ a) c := by
  refine ⟨by rw [h.1]; simp, ?_⟩
  intro a' c' e
  have h1 := noRight_infix hr e
  have h2 := congrArg (List.drop r.length) e
  rw [List.drop_left, List.append_assoc, List.drop_append_of_le_length h1, ← List.append_assoc] at h2
  have h3 := h.2 _ _ h2
  rw [List.length_drop] at h3
  rw [List.length_append]; omega

theorem replaced_rewritten {p r : List Nat} (hr : NoRight p r) {t o : List Nat} (h : Replaced p r t o) :
    Rewritten p r (r ++ t) (r ++ o) := by
  induction h with
  | none t hn =>
    apply Rewritten.none
    rintro ⟨a, c, e⟩
    have h1 := noRight_infix hr e.symm
    apply hn
    have h2 := congrArg (List.drop r.length) e
    rw [List.drop_left, List.append_assoc, List.drop_append_of_le_length h1, ← List.append_assoc] at h2
    exact ⟨_, _, h2⟩
  | next t a b o hf _ ih =>
    have := Rewritten.next (r ++ t) (r ++ a) b _ (noRight_first hr hf) ih
    simpa using this

theorem firstIn_unique {p t a b a' b' : List Nat} (h : FirstIn p t a b) (h' : FirstIn p t a' b') : a = a' ∧ b = b' := by
  have h1 := h.2 _ _ h'.1
  have h2 := h'.2 _ _ h.1
  have h3 : a ++ (p ++ b) = a' ++ (p ++ b') := by rw [← List.append_assoc, ← List.append_assoc, ← h.1, h'.1]
  obtain ⟨e1, e2⟩ := List.append_inj h3 (by omega)
  exact ⟨e1, List.append_cancel_left e2⟩

theorem rewritten_unique {p r : List Nat} {t o o' : List Nat} (h : Rewritten p r t o) (h' : Rewritten p r t o') :
    o = o' := by
  induction h generalizing o' with
  | none t hn =>
    cases h' with
    | none _ _ => rfl
    | next _ a b o hf _ => exact absurd ⟨a, b, hf.1.symm⟩ hn
  | next t a b o hf _ ih =>
    cases h' with
    | none _ hn => exact absurd ⟨a, b, hf.1.symm⟩ hn
    | next _ a' b' o' hf' h' =>
      obtain ⟨rfl, rfl⟩ := firstIn_unique hf hf'
      rw [ih h']

/-! ## The reader -/

theorem str_of_word {ws p t : List Nat} (hw : ∀ c ∈ ws, isSpace c = true) (hp : p ≠ [])
    (hps : ∀ c ∈ p, isSpace c = false) (ht : ∀ c, t.head? = some c → isSpace c = true) (old : List Nat) :
    (⟨ws ++ p ++ t, false, false, true⟩ : IS).str old = (p, ⟨t, t.isEmpty, false, true⟩) := by
  have hd : (ws ++ p ++ t).dropWhile isSpace = p ++ t := by
    rw [List.append_assoc, List.dropWhile_append_of_pos hw]
    cases p with
    | nil => exact absurd rfl hp
    | cons c p => rw [List.cons_append, List.dropWhile_cons_of_neg (by rw [hps c (by simp)]; simp)]
  have hne : (p ++ t).isEmpty = false := by cases p with
    | nil => exact absurd rfl hp
    | cons c p => rfl
  have hpn : p.isEmpty = false := by cases p with
    | nil => exact absurd rfl hp
    | cons c p => rfl
  have h1 : (p ++ t).takeWhile (fun c => !isSpace c) = p := by
    rw [List.takeWhile_append_of_pos (by intro c hc; rw [hps c hc]; rfl)]
    cases t with
    | nil => simp
    | cons c t => rw [List.takeWhile_cons_of_neg (by rw [ht c rfl]; simp), List.append_nil]
  have h2 : (p ++ t).dropWhile (fun c => !isSpace c) = t := by
    rw [List.dropWhile_append_of_pos (by intro c hc; rw [hps c hc]; rfl)]
    cases t with
    | nil => rfl
    | cons c t => rw [List.dropWhile_cons_of_neg (by rw [ht c rfl]; simp)]
  simp only [IS.str, IS.sentry, IS.good, hd, hne, Bool.not_false, Bool.and_true, Bool.not_true, Bool.false_eq_true,
    if_false, if_true, h1, h2, hpn]

theorem str_of_blank {ws : List Nat} (hw : ∀ c ∈ ws, isSpace c = true) (old : List Nat) :
    (⟨ws, false, false, true⟩ : IS).str old = (old, ⟨[], true, true, true⟩) := by
  have hd : ws.dropWhile isSpace = [] := by
    have := List.dropWhile_append_of_pos (l₂ := []) hw
    simpa using this
  simp [IS.str, IS.sentry, IS.good, hd]

theorem str_of_eof (old r : List Nat) (ws : Bool) :
    (⟨r, true, false, ws⟩ : IS).str old = (old, ⟨r, true, true, ws⟩) := by
  simp [IS.str, IS.sentry, IS.good]

theorem readReps_fail {s : IS} (h : s.fail = true) (fuel : Nat) (rep : Rep) (acc : List Rep) :
    readReps (fuel + 1) s rep acc = .ok (acc, s) := by
  rw [readReps, if_pos h]

theorem readReps_eof (fuel : Nat) (rep : Rep) (acc : List Rep) :
    readReps (fuel + 2) ⟨[], true, false, true⟩ rep acc = .ok (acc, ⟨[], true, true, true⟩) := by
  rw [readReps, if_neg (by simp)]
  simp only [str_of_eof, readReplace]
  rw [readReps_fail rfl]; rfl

theorem isSpace_nl : isSpace 10 = true := by decide

theorem readReps_ok {reps : List (List Nat × List Nat)} {prev t : List Nat} (h : RepText isSpace prev reps t) :
    ∀ (fuel : Nat) (e : Bool) (pat : List Nat) (acc : List Rep), t.length + 3 ≤ fuel → (e = true → t = []) →
    readReps fuel ⟨t, e, false, true⟩ ⟨pat, prev⟩ acc =
      .ok (acc ++ reps.map fun q => ⟨q.1, q.2⟩, ⟨[], true, true, true⟩) := by
  induction h with
  | blank prev ws hw =>
    intro fuel e pat acc hf he
    obtain ⟨f, rfl⟩ : ∃ f, fuel = f + 2 := ⟨fuel - 2, by omega⟩
    cases e with
    | true => rw [he rfl, readReps_eof]; simp
    | false =>
      rw [readReps, if_neg (by simp)]
      simp only [str_of_blank hw, readReplace]
      rw [readReps_fail rfl]; simp
  | bare prev ws p t reps hw hp hps _ ih =>
    intro fuel e pat acc hf he
    obtain ⟨f, rfl⟩ : ∃ f, fuel = f + 1 := ⟨fuel - 1, by omega⟩
    have he' : e = false := by
      cases e with
      | false => rfl
      | true => have := he rfl; simp at this
    subst he'
    rw [readReps, if_neg (by simp)]
    simp only [str_of_word hw hp hps (t := 10 :: t) (by intro c hc; cases hc; rfl)]
    simp only [readReplace, ne_eq, not_true_eq_false, if_false, Bool.false_eq_true, List.isEmpty_cons]
    have hpl : 0 < p.length := List.length_pos_iff.2 hp
    rw [ih f false p _ (by simp only [List.length_append, List.length_cons] at hf ⊢; omega) (by simp)]
    simp
  | pair prev ws p ws' r t reps hw hp hps hne hnl hw' hr hrs ht _ ih =>
    intro fuel e pat acc hf he
    obtain ⟨f, rfl⟩ : ∃ f, fuel = f + 1 := ⟨fuel - 1, by omega⟩
    have he' : e = false := by
      cases e with
      | false => rfl
      | true => have := he rfl; simp [hp] at this
    subst he'
    obtain ⟨c, w, rfl⟩ := List.exists_cons_of_ne_nil hne
    rw [readReps, if_neg (by simp)]
    simp only [str_of_word hw hp hps (t := c :: w ++ r ++ t) (by intro d hd; cases hd; exact hw' c (by simp))]
    have hc : c ≠ 10 := by simpa using hnl
    have hrr : ∀ e : Bool, e = false → readReplace ⟨c :: w ++ r ++ t, e, false, true⟩ prev =
        (r, ⟨t, t.isEmpty, false, true⟩) := by
      rintro _ rfl
      rw [readReplace]
      simp only [List.cons_append, hc, ne_eq, not_false_eq_true, if_true]
      exact str_of_word hw' hr hrs ht _
    rw [hrr (c :: w ++ r ++ t).isEmpty rfl]
    simp only [Bool.false_eq_true, if_false]
    have hpl : 0 < p.length := List.length_pos_iff.2 hp
    rw [ih f _ p _ (by simp only [List.length_append, List.length_cons] at hf ⊢; omega) (by simp)]
    simp
  | lost prev ws p ws' hw hp hps hne hnl hw' =>
    intro fuel e pat acc hf he
    obtain ⟨f, rfl⟩ : ∃ f, fuel = f + 2 := ⟨fuel - 2, by omega⟩
    have he' : e = false := by
      cases e with
      | false => rfl
      | true => have := he rfl; simp [hp] at this
    subst he'
    obtain ⟨c, w, rfl⟩ := List.exists_cons_of_ne_nil hne
    rw [readReps, if_neg (by simp)]
    simp only [str_of_word hw hp hps (t := c :: w) (by intro d hd; cases hd; exact hw' c (by simp))]
    have hc : c ≠ 10 := by simpa using hnl
    have hrr : ∀ e : Bool, e = false → readReplace ⟨c :: w, e, false, true⟩ prev = (prev, ⟨[], true, true, true⟩) := by
      rintro _ rfl
      rw [readReplace]
      simp only [hc, ne_eq, not_false_eq_true, if_true]
      exact str_of_blank hw' _
    rw [hrr (c :: w).isEmpty rfl]
    simp only [if_true]
    rw [readReps_fail rfl]; simp
  | last prev ws p hw hp hps =>
    intro fuel e pat acc hf he
    obtain ⟨f, rfl⟩ : ∃ f, fuel = f + 3 := ⟨fuel - 3, by omega⟩
    have he' : e = false := by
      cases e with
      | false => rfl
      | true => have := he rfl; simp [hp] at this
    subst he'
    have := str_of_word hw hp hps (t := []) (by simp) pat
    rw [List.append_nil] at this
    rw [readReps, if_neg (by simp)]
    simp only [this, readReplace, List.isEmpty_nil, Bool.false_eq_true, if_false]
    rw [readReps_eof]; simp

/-- Every text is of the grammar. -/
theorem repText_total : ∀ (n : Nat) (t : List Nat), t.length ≤ n → ∀ prev, ∃ reps, RepText isSpace prev reps t := by
  have hsp : ∀ l : List Nat, ∀ c ∈ l.takeWhile isSpace, isSpace c = true := fun l =>
    List.all_eq_true.1 List.all_takeWhile
  have hns : ∀ l : List Nat, ∀ c ∈ l.takeWhile (fun c => !isSpace c), isSpace c = false := fun l c hc => by
    have := List.all_eq_true.1 (List.all_takeWhile (p := fun c => !isSpace c) (l := l)) c hc
    simpa using this
  have hhs : ∀ l : List Nat, ∀ c, (l.dropWhile (fun c => !isSpace c)).head? = some c → isSpace c = true := fun l c hc => by
    have := List.head?_dropWhile_not (fun c => !isSpace c) l
    rw [hc] at this
    simpa using this
  have hhn : ∀ l : List Nat, ∀ c, (l.dropWhile isSpace).head? = some c → isSpace c = false := fun l c hc => by
    have := List.head?_dropWhile_not isSpace l
    rw [hc] at this
    simpa using this
  have hword : ∀ l : List Nat, (∀ c, l.head? = some c → isSpace c = false) → l ≠ [] →
      l.takeWhile (fun c => !isSpace c) ≠ [] := by
    intro l h hl
    obtain ⟨c, l, rfl⟩ := List.exists_cons_of_ne_nil hl
    rw [List.takeWhile_cons_of_pos (by rw [h c rfl]; rfl)]
    simp
  intro n
  induction n with
  | zero =>
    intro t ht prev
    have : t = [] := List.length_eq_zero_iff.1 (by omega)
    subst this
    exact ⟨_, .blank prev [] (by simp)⟩
  | succ n ih =>
    intro t ht prev
    obtain ⟨ws, hwsd⟩ : ∃ ws, ws = t.takeWhile isSpace := ⟨_, rfl⟩
    obtain ⟨u, hud⟩ : ∃ u, u = t.dropWhile isSpace := ⟨_, rfl⟩
    have e1 : t = ws ++ u := by rw [hwsd, hud, List.takeWhile_append_dropWhile]
    have hws : ∀ c ∈ ws, isSpace c = true := hwsd ▸ hsp t
    by_cases hu : u = []
    · rw [e1, hu, List.append_nil]; exact ⟨_, .blank prev ws hws⟩
    obtain ⟨p, hpd⟩ : ∃ p, p = u.takeWhile (fun c => !isSpace c) := ⟨_, rfl⟩
    obtain ⟨v, hvd⟩ : ∃ v, v = u.dropWhile (fun c => !isSpace c) := ⟨_, rfl⟩
    have e2 : u = p ++ v := by rw [hpd, hvd, List.takeWhile_append_dropWhile]
    have hps : ∀ c ∈ p, isSpace c = false := hpd ▸ hns u
    have hp : p ≠ [] := hpd ▸ hword u (hud ▸ hhn t) hu
    have hpl : 0 < p.length := List.length_pos_iff.2 hp
    have hvh : ∀ c, v.head? = some c → isSpace c = true := hvd ▸ hhs u
    have hl : t.length = ws.length + (p.length + v.length) := by rw [e1, e2]; simp
    by_cases hv : v = []
    · rw [e1, e2, hv, List.append_nil]; exact ⟨_, .last prev ws p hws hp hps⟩
    obtain ⟨c, v', rfl⟩ := List.exists_cons_of_ne_nil hv
    rw [e1, e2, ← List.append_assoc]
    by_cases hc : c = 10
    · subst hc
      obtain ⟨reps, hr⟩ := ih (10 :: v') (by simp only [List.length_cons] at hl ⊢; omega) []
      exact ⟨_, .bare prev ws p v' reps hws hp hps hr⟩
    obtain ⟨ws', hwd'⟩ : ∃ w, w = (c :: v').takeWhile isSpace := ⟨_, rfl⟩
    obtain ⟨x, hxd⟩ : ∃ x, x = (c :: v').dropWhile isSpace := ⟨_, rfl⟩
    have e3 : c :: v' = ws' ++ x := by rw [hwd', hxd, List.takeWhile_append_dropWhile]
    have hws' : ∀ c ∈ ws', isSpace c = true := by rw [hwd']; exact hsp _
    have hcons : ws' = c :: v'.takeWhile isSpace := by
      rw [hwd', List.takeWhile_cons_of_pos (hvh c rfl)]
    have hne : ws' ≠ [] := by rw [hcons]; simp
    have hnl : ws'.head? ≠ some 10 := by rw [hcons]; simpa using hc
    by_cases hx : x = []
    · rw [e3, hx, List.append_nil]; exact ⟨_, .lost prev ws p ws' hws hp hps hne hnl hws'⟩
    obtain ⟨r, hrd⟩ : ∃ r, r = x.takeWhile (fun c => !isSpace c) := ⟨_, rfl⟩
    obtain ⟨y, hyd⟩ : ∃ y, y = x.dropWhile (fun c => !isSpace c) := ⟨_, rfl⟩
    have e4 : x = r ++ y := by rw [hrd, hyd, List.takeWhile_append_dropWhile]
    have hl3 := congrArg List.length e3
    rw [e4] at hl3
    simp only [List.length_append, List.length_cons] at hl3 hl
    obtain ⟨reps, hr⟩ := ih y (by omega) r
    rw [e3, e4, ← List.append_assoc ws' r y]
    exact ⟨_, .pair prev ws p ws' r y reps hws hp hps hne hnl hws' (hrd ▸ hword x (hxd ▸ hhn _) hx) (hrd ▸ hns x)
      (hyd ▸ hhs x) hr⟩

theorem repText_words {reps : List (List Nat × List Nat)} {prev t : List Nat} (h : RepText isSpace prev reps t) :
    ∀ q ∈ reps, q.1 ≠ [] ∧ (∀ c ∈ q.1, isSpace c = false) := by
  induction h with
  | blank => simp
  | bare prev ws p t reps hw hp hps _ ih =>
    intro q hq
    rcases List.mem_cons.1 hq with rfl | hq
    · exact ⟨hp, hps⟩
    · exact ih q hq
  | pair prev ws p ws' r t reps hw hp hps hne hnl hw' hr hrs ht _ ih =>
    intro q hq
    rcases List.mem_cons.1 hq with rfl | hq
    · exact ⟨hp, hps⟩
    · exact ih q hq
  | lost => simp
  | last prev ws p hw hp hps =>
    intro q hq
    rw [List.mem_singleton.1 hq]
    exact ⟨hp, hps⟩

end Ppocr

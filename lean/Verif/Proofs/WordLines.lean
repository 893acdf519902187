import Verif.Spec.WordLines
import Verif.Proofs.GlyphIO
import Verif.Proofs.FilterLines

/-! # Reading the positions of words -/

namespace Ppocr
open Spec

theorem isBlank_iff {c : Nat} : isSpace c = true ↔ Blank c := by
  simp [isSpace, Blank]

theorem digit_iff {c : Nat} : isDec c = true ↔ Digit c := by simp [isDec, Digit]

theorem numeral_eq : ∀ (l : List Nat) (n : Nat), l.foldl (fun n c => n * 10 + (c - 48)) n = numeral l n
  | [], _ => rfl
  | c :: l, n => by rw [List.foldl_cons, numeral, numeral_eq l, Nat.mul_comm]

theorem decVal_numeral (l : List Nat) : decVal l = numeral l 0 := numeral_eq l 0

/-- A stream that has not failed: at its end nothing is left. -/
def Live (s : IS) : Prop := s.fail = false ∧ s.ws = true ∧ (s.eof = true → s.rest = [])

theorem dropWhile_head {p : Nat → Bool} : ∀ (l : List Nat) c u, l.dropWhile p = c :: u → p c = false
  | [], _, _, h => by simp at h
  | a :: l, c, u, h => by
    rw [List.dropWhile_cons] at h
    split at h
    · exact dropWhile_head l c u h
    · injection h with h1 _
      subst h1
      simpa using ‹¬ p a = true›

theorem takeWhile_all {p : Nat → Bool} (l : List Nat) : ∀ c ∈ l.takeWhile p, p c = true := by
  intro c hc
  induction l with
  | nil => simp at hc
  | cons a l ih =>
    rw [List.takeWhile_cons] at hc
    split at hc
    · rcases List.mem_cons.1 hc with rfl | hc
      · assumption
      · exact ih hc
    · simp at hc

theorem sentry_live {s : IS} (h : Live s) :
    (s.rest.dropWhile isSpace = [] ∧ (s.sentry false).2 = false ∧ (s.sentry false).1.fail = true) ∨
    (s.rest.dropWhile isSpace ≠ [] ∧ s.eof = false ∧
      s.sentry false = (⟨s.rest.dropWhile isSpace, false, false, true⟩, true)) := by
  obtain ⟨r, e, f, w⟩ := s
  obtain ⟨h1, h2, h3⟩ := h
  simp only at h1 h2 h3
  subst h1 h2
  cases e with
  | true =>
    rw [h3 rfl]
    left
    simp [IS.sentry, IS.good]
  | false =>
    by_cases hr : r.dropWhile isSpace = []
    · left
      simp [IS.sentry, IS.good, hr]
    · right
      simp [IS.sentry, IS.good, hr]

/-- Reading a word succeeds exactly when the text begins with one. -/
theorem str_iff {s : IS} (h : Live s) (old w r : List Nat) :
    Word s.rest w r ↔ ((s.str old).2.fail = false ∧ (s.str old).1 = w ∧ (s.str old).2.rest = r) := by
  constructor
  · rintro ⟨p, ht, hp, hw, hnb, hr⟩
    obtain ⟨rest, e, f, ws⟩ := s
    obtain ⟨h1, h2, h3⟩ := h
    simp only at h1 h2 h3 ht
    subst h1 h2 ht
    have he : e = false := by
      cases e with
      | false => rfl
      | true =>
        have := h3 rfl
        simp [hw] at this
    subst he
    rw [str_show hw (fun c hc => by
        rw [Bool.eq_false_iff]
        exact fun hb => hnb c hc (isBlank_iff.1 hb))
      (fun c hc => isBlank_iff.2 (hp c hc)) (fun _ => rfl) (fun c u hu => isBlank_iff.2 (hr c u hu))]
    exact ⟨rfl, rfl, rfl⟩
  · rintro ⟨hf, rfl, rfl⟩
    rcases sentry_live h with ⟨_, h1, h2⟩ | ⟨hne, he, h1⟩
    · unfold IS.str at hf
      cases hs : s.sentry false with
      | mk a b =>
        rw [hs] at h1 h2
        simp only at h1 h2
        subst h1
        rw [hs] at hf
        simp only [h2] at hf
        cases hf
    · unfold IS.str at hf ⊢
      rw [h1] at hf ⊢
      simp only [] at hf ⊢
      refine ⟨s.rest.takeWhile isSpace, ?_, ?_, ?_, ?_, ?_⟩
      · rw [List.takeWhile_append_dropWhile, List.takeWhile_append_dropWhile]
      · intro c hc
        exact isBlank_iff.1 (takeWhile_all _ c hc)
      · intro hn
        rw [hn] at hf
        simp at hf
      · intro c hc hb
        have := takeWhile_all _ c hc
        rw [isBlank_iff.2 hb] at this
        simp at this
      · intro c u hu
        have := dropWhile_head _ c u hu
        rw [← isBlank_iff]
        simpa using this

theorem str_live {s : IS} (h : Live s) (old : List Nat) (hf : (s.str old).2.fail = false) : Live (s.str old).2 := by
  rcases sentry_live h with ⟨_, h1, h2⟩ | ⟨hne, he, h1⟩
  · unfold IS.str at hf
    cases hs : s.sentry false with
    | mk a b =>
      rw [hs] at h1 h2
      simp only at h1 h2
      subst h1
      rw [hs] at hf
      simp only [h2] at hf
      cases hf
  · unfold IS.str at hf ⊢
    rw [h1] at hf ⊢
    simp only [] at hf ⊢
    exact ⟨hf, rfl, by simp⟩

theorem parseSign_split (l : List Nat) : ∃ sgn, l = sgn ++ (parseSign l).2 ∧ (sgn = [] ∨ sgn = [43] ∨ sgn = [45]) ∧
    ((parseSign l).1 = true ↔ sgn = [45]) := by
  cases l with
  | nil => exact ⟨[], rfl, .inl rfl, by simp [parseSign]⟩
  | cons c t =>
    unfold parseSign
    by_cases h1 : c = 45
    · subst h1
      exact ⟨[45], rfl, .inr (.inr rfl), by simp⟩
    · by_cases h2 : c = 43
      · subst h2
        exact ⟨[43], rfl, .inr (.inl rfl), by simp⟩
      · exact ⟨[], by simp [h1, h2], .inl rfl, by simp [h1, h2]⟩

theorem parseSign_of {sgn d r : List Nat} (hs : sgn = [] ∨ sgn = [43] ∨ sgn = [45]) (hd : d ≠ [])
    (hdd : ∀ c ∈ d, isDec c = true) :
    parseSign (sgn ++ (d ++ r)) = (decide (sgn = [45]), d ++ r) := by
  rcases hs with rfl | rfl | rfl
  · cases d with
    | nil => exact absurd rfl hd
    | cons c t =>
      rw [List.nil_append, List.cons_append, parseSign_dec (hdd c (by simp))]
      simp
  · rfl
  · rfl

theorem uint_iff {s : IS} (h : Live s) (old n : Nat) (r : List Nat) :
    Num s.rest n r ↔ ((s.uint (W32 - 1) old).2.fail = false ∧ (s.uint (W32 - 1) old).1 = n ∧
      (s.uint (W32 - 1) old).2.rest = r) := by
  constructor
  · rintro ⟨p, sgn, d, ht, hp, hsg, hd, hdd, hr, hv, hn⟩
    have hdd' : ∀ c ∈ d, isDec c = true := fun c hc => digit_iff.2 (hdd c hc)
    obtain ⟨rest, e, f, ws⟩ := s
    obtain ⟨h1, h2, h3⟩ := h
    simp only at h1 h2 h3 ht
    subst h1 h2 ht
    have he : e = false := by
      cases e with
      | false => rfl
      | true =>
        have := h3 rfl
        simp [hd] at this
    subst he
    unfold IS.uint
    rw [sentry_skip (fun c hc => isBlank_iff.2 (hp c hc)) (fun _ => rfl) (by simp [hd]) (by
      intro c u hc
      rcases hsg with rfl | rfl | rfl
      · cases d with
        | nil => exact absurd rfl hd
        | cons c' t =>
          rw [List.nil_append, List.cons_append, List.cons.injEq] at hc
          rw [← hc.1]
          exact isSpace_of_dec (hdd' c' (by simp))
      · simp only [List.cons_append, List.cons.injEq] at hc
        rw [← hc.1]
        rfl
      · simp only [List.cons_append, List.cons.injEq] at hc
        rw [← hc.1]
        rfl)]
    simp only []
    rw [parseSign_of hsg hd hdd']
    obtain ⟨e1, e2⟩ := dropWhile_prefix hdd' (b := r) (fun c u hu => by
      rw [Bool.eq_false_iff]
      exact fun hb => hr c u hu (digit_iff.1 hb))
    simp only [e1, e2, decVal_numeral]
    rw [if_neg (by simpa using hd), if_neg (by simp only [W32]; omega)]
    refine ⟨rfl, ?_, rfl⟩
    rw [hn]
    simp only [decide_eq_true_eq]
    rfl
  · rintro ⟨hf, rfl, rfl⟩
    rcases sentry_live h with ⟨_, h1, h2⟩ | ⟨hne, he, h1⟩
    · unfold IS.uint at hf
      cases hs : s.sentry false with
      | mk a b =>
        rw [hs] at h1 h2
        simp only at h1 h2
        subst h1
        rw [hs] at hf
        simp only [h2] at hf
        cases hf
    · unfold IS.uint at hf ⊢
      rw [h1] at hf ⊢
      simp only [] at hf ⊢
      obtain ⟨sgn, hs, hsg, hneg⟩ := parseSign_split (s.rest.dropWhile isSpace)
      cases hps : parseSign (s.rest.dropWhile isSpace) with
      | mk neg l =>
        rw [hps] at hf hs hneg
        simp only at hf hs hneg ⊢
        split at hf
        · simp at hf
        · rename_i hde
          split at hf
          · simp at hf
          · rename_i hmax
            rw [if_neg hde, if_neg hmax]
            refine ⟨s.rest.takeWhile isSpace, sgn, l.takeWhile isDec, ?_, ?_, hsg, ?_, ?_, ?_, ?_, ?_⟩
            · rw [List.takeWhile_append_dropWhile, ← hs, List.takeWhile_append_dropWhile]
            · intro c hc
              exact isBlank_iff.1 (takeWhile_all _ c hc)
            · simpa using hde
            · intro c hc
              exact digit_iff.1 (takeWhile_all _ c hc)
            · intro c u hu hb
              have := dropWhile_head _ c u hu
              rw [digit_iff.2 hb] at this
              simp at this
            · rw [← decVal_numeral]
              simp only [W32] at hmax
              omega
            · rw [← decVal_numeral]
              simp only [hneg]
              rfl

theorem uint_live {s : IS} (h : Live s) (old : Nat) (hf : (s.uint (W32 - 1) old).2.fail = false) :
    Live (s.uint (W32 - 1) old).2 := by
  rcases sentry_live h with ⟨_, h1, h2⟩ | ⟨hne, he, h1⟩
  · unfold IS.uint at hf
    cases hs : s.sentry false with
    | mk a b =>
      rw [hs] at h1 h2
      simp only at h1 h2
      subst h1
      rw [hs] at hf
      simp only [h2] at hf
      cases hf
  · unfold IS.uint at hf ⊢
    rw [h1] at hf ⊢
    simp only [] at hf ⊢
    split at hf
    · simp at hf
    · rename_i hde
      split at hf
      · simp at hf
      · rename_i hmax
        rw [if_neg hde, if_neg hmax]
        exact ⟨rfl, rfl, by simp⟩

/-- A failed stream stays so. -/
theorem uint_fail {s : IS} (h : s.fail = true) (m old : Nat) : (s.uint m old).2.fail = true := by
  unfold IS.uint IS.sentry IS.good
  simp [h]

theorem uint_fail_of {s : IS} {m old : Nat} (h : (s.uint m old).2.fail = false) : s.fail = false := by
  cases hf : s.fail with
  | false => rfl
  | true => rw [uint_fail hf] at h; exact h

/-- One pass of the loop: what is read, and whether it was an entry. -/
theorem entry_iff {s : IS} (h : Live s) (e : Entry) (r : List Nat) :
    HasEntry s.rest e r ↔
      ((wlinesRead (s.str []).2 ⟨0, 0, 0, 0⟩).2.fail = false ∧ (s.str []).1 = e.word ∧
        ((s.str []).2.uint (W32 - 1) 0).1 = e.ascent ∧
        (((s.str []).2.uint (W32 - 1) 0).2.uint (W32 - 1) 0).1 = e.cap ∧
        ((((s.str []).2.uint (W32 - 1) 0).2.uint (W32 - 1) 0).2.uint (W32 - 1) 0).1 = e.mean ∧
        (((((s.str []).2.uint (W32 - 1) 0).2.uint (W32 - 1) 0).2.uint (W32 - 1) 0).2.uint (W32 - 1) 0).1 = e.base ∧
        (wlinesRead (s.str []).2 ⟨0, 0, 0, 0⟩).2.rest = r) := by
  constructor
  · rintro ⟨r0, r1, r2, r3, hw, h1, h2, h3, h4⟩
    obtain ⟨f0, v0, e0⟩ := (str_iff h [] _ _).1 hw
    have l0 := str_live h [] f0
    rw [← e0] at h1
    obtain ⟨f1, v1, e1⟩ := (uint_iff l0 0 _ _).1 h1
    have l1 := uint_live l0 0 f1
    rw [← e1] at h2
    obtain ⟨f2, v2, e2⟩ := (uint_iff l1 0 _ _).1 h2
    have l2 := uint_live l1 0 f2
    rw [← e2] at h3
    obtain ⟨f3, v3, e3⟩ := (uint_iff l2 0 _ _).1 h3
    have l3 := uint_live l2 0 f3
    rw [← e3] at h4
    obtain ⟨f4, v4, e4⟩ := (uint_iff l3 0 _ _).1 h4
    exact ⟨f4, v0, v1, v2, v3, v4, e4⟩
  · rintro ⟨f4, v0, v1, v2, v3, v4, e4⟩
    have f3 := uint_fail_of f4
    have f2 := uint_fail_of f3
    have f1 := uint_fail_of f2
    have f0 := uint_fail_of f1
    have l0 := str_live h [] f0
    have l1 := uint_live l0 0 f1
    have l2 := uint_live l1 0 f2
    have l3 := uint_live l2 0 f3
    exact ⟨_, _, _, _, (str_iff h [] _ _).2 ⟨f0, v0, rfl⟩, (uint_iff l0 0 _ _).2 ⟨f1, v1, rfl⟩,
      (uint_iff l1 0 _ _).2 ⟨f2, v2, rfl⟩, (uint_iff l2 0 _ _).2 ⟨f3, v3, rfl⟩, (uint_iff l3 0 _ _).2 ⟨f4, v4, e4⟩⟩

theorem pass_live {s : IS} (h : Live s) (hf : (wlinesRead (s.str []).2 ⟨0, 0, 0, 0⟩).2.fail = false) :
    Live (wlinesRead (s.str []).2 ⟨0, 0, 0, 0⟩).2 := by
  have f3 := uint_fail_of (hf : (((((s.str []).2.uint (W32 - 1) 0).2.uint (W32 - 1) 0).2.uint (W32 - 1) 0).2.uint
    (W32 - 1) 0).2.fail = false)
  have f2 := uint_fail_of f3
  have f1 := uint_fail_of f2
  have f0 := uint_fail_of f1
  exact uint_live (uint_live (uint_live (uint_live (str_live h [] f0) 0 f1) 0 f2) 0 f3) 0 hf

theorem hasEntry_shorter {t r : List Nat} {e : Entry} (h : HasEntry t e r) : r.length < t.length := by
  obtain ⟨r0, r1, r2, r3, hw, h1, h2, h3, h4⟩ := h
  have num : ∀ {t r : List Nat} {n : Nat}, Num t n r → r.length < t.length := by
    rintro t r n ⟨p, sgn, d, rfl, _, _, hd, _⟩
    have := List.length_pos_iff.2 hd
    simp only [List.length_append]
    omega
  have h1 := num h1
  have h2 := num h2
  have h3 := num h3
  have h4 := num h4
  obtain ⟨p, rfl, _⟩ := hw
  simp only [List.length_append]
  omega

theorem keep_cons (e : Entry) (es : List Entry) :
    keep (e :: es) = (if e.word.length ≤ 8 then [⟨e.word, e.ascent % 8, e.cap % 8, e.mean % 8, e.base % 8⟩] else []) ++
      keep es := by
  unfold keep
  rw [List.filter_cons]
  by_cases h : e.word.length ≤ 8
  · simp [h]
  · simp [h]

theorem wwordsLoop_ok : ∀ (fuel : Nat) (s : IS) (acc : List WWordLines) (es : List Entry), Live s →
    s.rest.length < fuel → Entries s.rest es →
    ∃ s', wwordsLoop fuel s acc = .ok (acc ++ keep es, s') ∧ s'.fail = true
  | 0, _, _, _, _, h, _ => by omega
  | fuel + 1, s, acc, es, hl, hf, he => by
    rw [wwordsLoop]
    generalize ht : s.rest = t at he
    cases he with
    | stop _ hno =>
      have : (wlinesRead (s.str []).2 ⟨0, 0, 0, 0⟩).2.fail = true := by
        rw [← Bool.not_eq_false]
        intro hff
        exact hno ⟨⟨_, _, _, _, _⟩, _, by
          rw [← ht]
          exact (entry_iff hl ⟨_, _, _, _, _⟩ _).2 ⟨hff, rfl, rfl, rfl, rfl, rfl, rfl⟩⟩
      rw [if_pos this]
      exact ⟨_, by simp [keep], this⟩
    | more _ r e es' h1 h2 =>
      rw [← ht] at h1
      have hlen := hasEntry_shorter h1
      obtain ⟨f, v0, v1, v2, v3, v4, er⟩ := (entry_iff hl e r).1 h1
      rw [if_neg (by rw [f]; simp)]
      rw [← er] at h2
      obtain ⟨s', e', hs'⟩ := wwordsLoop_ok fuel _ (if (s.str []).1.length ≤ 8 then
        acc ++ [⟨(s.str []).1, (wlinesRead (s.str []).2 ⟨0, 0, 0, 0⟩).1⟩] else acc) es' (pass_live hl f)
        (by rw [er]; omega) h2
      refine ⟨s', ?_, hs'⟩
      rw [e', keep_cons]
      have hlines : (wlinesRead (s.str []).2 ⟨0, 0, 0, 0⟩).1 = ⟨e.ascent % 8, e.cap % 8, e.mean % 8, e.base % 8⟩ := by
        unfold wlinesRead at f ⊢
        simp only [] at f ⊢
        rw [f, v1, v2, v3, v4]
        rfl
      rw [hlines, v0]
      by_cases h8 : e.word.length ≤ 8
      · simp [h8]
      · simp [h8]

theorem entries_exists : ∀ (n : Nat) (t : List Nat), t.length ≤ n → ∃ es, Entries t es
  | 0, t, h => by
    refine ⟨[], .stop t ?_⟩
    rintro ⟨e, r, he⟩
    have := hasEntry_shorter he
    omega
  | n + 1, t, h => by
    by_cases hx : ∃ e r, HasEntry t e r
    · obtain ⟨e, r, he⟩ := hx
      have := hasEntry_shorter he
      obtain ⟨es, hes⟩ := entries_exists n r (by omega)
      exact ⟨e :: es, .more t r e es he hes⟩
    · exact ⟨[], .stop t hx⟩

/-! ### `WordsInfos` -/

theorem infosLoop_mem {g : RGlyphs} : ∀ (ls : List WWordLines) {l : List WordInfo}, infosLoop g ls = .ok l →
    ∀ e, e ∈ l ↔ Registered g ls e
  | [], l, h, e => by
    simp only [infosLoop, Res.ok.injEq] at h
    subst h
    simp [Registered]
  | p :: ps, l, h, e => by
    rw [infosLoop] at h
    obtain ⟨idx, hi, h⟩ := Res.bind_eq_ok.1 h
    obtain ⟨r, hr, h⟩ := Res.bind_eq_ok.1 h
    simp only [Res.pure_eq, Res.ok.injEq] at h
    have ih := infosLoop_mem ps hr e
    unfold Registered at ih ⊢
    by_cases hn : idx = noIndex
    · rw [if_neg (by simpa using hn)] at h
      subst h
      rw [ih]
      constructor
      · rintro ⟨h1, q, hq, h2, h3⟩
        exact ⟨h1, q, by simp [hq], h2, h3⟩
      · rintro ⟨h1, q, hq, h2, h3⟩
        refine ⟨h1, q, ?_, h2, h3⟩
        rcases List.mem_cons.1 hq with rfl | hq
        · rw [hi] at h2
          injection h2 with h2
          exact absurd (h2.symm.trans hn) h1
        · exact hq
    · rw [if_pos hn] at h
      subst h
      rw [List.mem_cons, ih]
      constructor
      · rintro (rfl | ⟨h1, q, hq, h2, h3⟩)
        · exact ⟨hn, p, by simp, hi, rfl⟩
        · exact ⟨h1, q, by simp [hq], h2, h3⟩
      · rintro ⟨h1, q, hq, h2, h3⟩
        rcases List.mem_cons.1 hq with rfl | hq
        · left
          rw [hi] at h2
          injection h2 with h2
          cases e
          simp only at h2 h3
          rw [h2, h3]
        · exact .inr ⟨h1, q, hq, h2, h3⟩

theorem infoLt_strictWeak : StrictWeak fun a b : WordInfo => decide (a.word < b.word) := by
  constructor
  · intro a
    simp
  · intro a b c h1 h2
    simp only [decide_eq_true_eq] at *
    omega
  · intro a b c h1 h2 h3 h4
    simp only [decide_eq_false_iff_not] at *
    omega

theorem wordsInfos_sorted {S : StdSort} {g : RGlyphs} {ls : List WWordLines} {l : List WordInfo}
    (h : wordsInfos S g ls = .ok l) : InfosSorted l ∧ ∀ e, e ∈ l ↔ Registered g ls e := by
  unfold wordsInfos at h
  obtain ⟨l', hl', h⟩ := Res.bind_eq_ok.1 h
  simp only [Res.pure_eq, Res.ok.injEq] at h
  subst h
  refine ⟨(S.sorted _ l' infoLt_strictWeak).imp ?_, ?_⟩
  · intro a b hab
    simp only [decide_eq_false_iff_not] at hab
    omega
  · intro e
    rw [(S.perm _ l' infoLt_strictWeak).mem_iff, infosLoop_mem ls hl']

end Ppocr

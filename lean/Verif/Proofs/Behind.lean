import Verif.Proofs.Cut
import Verif.Proofs.DatasIO
import Verif.Proofs.Learn
import Verif.Spec.Damage

/-! # Text behind the contents of a file -/

namespace Ppocr
open Spec

theorem uint_foreign {r : List Nat} (h : Foreign r) (ws : Bool) (m old : Nat) :
    ∃ k, (IS.uint m ⟨r, false, false, ws⟩ old).2 = ⟨k, false, true, ws⟩ ∧
      (ws = true → ∃ p, r = p ++ k ∧ (∀ b ∈ p, Blank b) ∧ ∃ c t, k = c :: t ∧ ¬ Blank c) := by
  obtain ⟨p, c, t, rfl, hp, hb, hd, h1, h2⟩ := h
  have hsp : isSpace c = false := by
    rw [Bool.eq_false_iff]
    exact fun h => hb (isBlank_iff.1 h)
  have hdc : isDec c = false := by
    rw [Bool.eq_false_iff]
    exact fun h => hd (digit_iff.1 h)
  have hps : ∀ b ∈ p, isSpace b = true := fun b hm => isBlank_iff.2 (hp b hm)
  have hsign : ∀ {x : Nat} {l : List Nat}, x ≠ 45 → x ≠ 43 → parseSign (x :: l) = (false, x :: l) := by
    intro x l a b
    simp [parseSign, a, b]
  unfold IS.uint
  cases ws with
  | true =>
    rw [sentry_skip hps (fun _ => rfl) (by simp) (by
      intro c' t' e
      rw [List.cons.injEq] at e
      rw [← e.1]
      exact hsp)]
    simp only []
    rw [hsign h2 h1]
    simp only [List.takeWhile_cons, hdc]
    exact ⟨c :: t, by simp [hdc], fun _ => ⟨p, rfl, hp, c, t, rfl, hb⟩⟩
  | false =>
    have : IS.sentry ⟨p ++ c :: t, false, false, false⟩ false = (⟨p ++ c :: t, false, false, false⟩, true) := rfl
    rw [this]
    simp only []
    cases p with
    | nil =>
      rw [List.nil_append, hsign h2 h1]
      exact ⟨c :: t, by simp [hdc], by simp⟩
    | cons b p =>
      have hb' := hp b (by simp)
      have hdb : isDec b = false := by
        cases e : isDec b with
        | false => rfl
        | true =>
          have := hps b (by simp)
          rw [isSpace_of_dec e] at this
          simp at this
      rw [List.cons_append, hsign (by unfold Blank at hb'; omega) (by unfold Blank at hb'; omega)]
      exact ⟨b :: (p ++ c :: t), by simp [hdb], by simp⟩

/-! ### Features -/

theorem tablesRead_append {n : Nat} (r : List Nat) : ∀ (ts : List Table) (p : List Nat), (∀ c ∈ p, isSpace c = true) →
    (∀ t ∈ ts, t.vals.length = n ∧ ∀ v ∈ t.vals, v.Fits t.strat.1.shape) →
    ∃ p', (∀ c ∈ p', isSpace c = true) ∧
      tablesRead n (ts.map Table.strat) ⟨p ++ (ts.flatMap tableWrite ++ r), false, false, true⟩ =
        (ts, (IS.sentry ⟨p' ++ r, false, false, true⟩ false).1)
  | [], p, hp, _ => ⟨p, hp, rfl⟩
  | t :: ts, p, hp, h => by
    obtain ⟨hl, hv⟩ := h t (by simp)
    obtain ⟨p1, hp1, e1⟩ := reads_values t.vals hv p (10 :: (ts.flatMap tableWrite ++ r)) hp
    obtain ⟨p2, hp2, ih⟩ := tablesRead_append r ts (p1 ++ [10]) (by
      intro c hc
      rcases List.mem_append.1 hc with hc | hc
      · exact hp1 c hc
      · simp only [List.mem_singleton] at hc
        subst hc
        rfl) fun u hu => h u (by simp [hu])
    refine ⟨p2, hp2, ?_⟩
    have e : p ++ ((t :: ts).flatMap tableWrite ++ r) =
        p ++ (t.vals.flatMap (valueWrite t.strat.1.shape) ++ 10 :: (ts.flatMap tableWrite ++ r)) := by
      simp [tableWrite]
    rw [List.map_cons, tablesRead, e, ← hl]
    simp only [Bool.false_eq_true, if_false]
    rw [e1]
    simp only []
    have e2 : p1 ++ 10 :: (ts.flatMap tableWrite ++ r) = p1 ++ [10] ++ (ts.flatMap tableWrite ++ r) := by simp
    rw [e2, hl, ih]

theorem datasRead_append {d : Datas} (h : d.Fits) (r : List Nat) :
    ∃ p', (∀ c ∈ p', isSpace c = true) ∧
      datasRead (IS.of (datasWrite d ++ r)) = (⟨d.tables, Ctxs.fresh⟩, (IS.sentry ⟨p' ++ r, false, false, true⟩ false).1) := by
  obtain ⟨p', hp', e⟩ := tablesRead_append (n := d.size) r d.tables [10] (by decide) fun t ht => ⟨h.same t ht, h.vals t ht⟩
  refine ⟨p', hp', ?_⟩
  unfold datasRead IS.of datasWrite
  have := uint_show (p := []) (old := 0) (ws := true) h.size (by simp) (by simp) (dec_10 (d.tables.flatMap tableWrite ++ r))
  rw [List.nil_append] at this
  rw [show ∀ a b : List Nat, (a ++ 10 :: b) ++ r = a ++ 10 :: (b ++ r) by intros; simp, this]
  simp only [List.isEmpty_cons]
  rw [h.strats] at e
  have e' : [10] ++ (d.tables.flatMap tableWrite ++ r) = 10 :: (d.tables.flatMap tableWrite ++ r) := rfl
  rw [e'] at e
  rw [e]

theorem sentry_nonblank {r : List Nat} (h : ∃ c ∈ r, ¬ Blank c) :
    (IS.sentry ⟨r, false, false, true⟩ false).1.eof = false := by
  have hd : r.dropWhile isSpace ≠ [] := by
    obtain ⟨c, hc, hb⟩ := h
    intro e
    have := List.takeWhile_append_dropWhile (p := isSpace) (l := r)
    rw [e, List.append_nil] at this
    rw [← this] at hc
    exact hb (isBlank_iff.1 (takeWhile_all r c hc))
  unfold IS.sentry IS.good
  simp [hd]

theorem sentry_blank {r : List Nat} (h : ∀ c ∈ r, Blank c) : (IS.sentry ⟨r, false, false, true⟩ false).1.eof = true := by
  have hd := blank_skip r h
  unfold IS.sentry IS.good
  simp [hd]

/-! ### Dictionary -/

theorem nodeRead_foreign {r : List Nat} (h : Foreign r) : (nodeRead ⟨r, false, false, false⟩).2.Stuck := by
  obtain ⟨k, e, _⟩ := uint_foreign h false (W32 - 1) 0
  have h0 : (IS.uint (W32 - 1) ⟨r, false, false, false⟩ 0).2.Stuck := by
    rw [e]
    exact ⟨rfl, rfl⟩
  have hc := fun (s : IS) (h : s.Stuck) => (cuts_char 0).stuck s h
  have hu := fun (s : IS) (h : s.Stuck) => (cuts_uint (W32 - 1) 0).stuck s h
  have hb := fun (s : IS) (h : s.Stuck) => (cuts_bool false).stuck s h
  exact hc _ (hb _ (hc _ (hu _ (hc _ (hu _ (hc _ h0))))))

theorem dictRead_foreign {E : List FNode} (h : ∀ f ∈ E, f.fits) {r : List Nat} (hr : Foreign r) (old : List FNode) :
    ∃ s, dictRead (IS.of (dictWrite E ++ r)) old = .ok ⟨false, E, s⟩ ∧ s.eof = false := by
  have hs := nodeRead_foreign hr
  refine ⟨_, dictRead_append h r true old (r := (.nodes E, (nodeRead ⟨r, false, false, false⟩).2)) ?_, hs.2⟩
  rw [dictLoop]
  simp only [hs.1, if_true]

/-! ### Glyphs -/

theorem rglyphsLoop_line {l : List Nat} (h : 10 ∉ l) (fuel : Nat) (wm fm : StrMap) (acc : List (List View)) :
    rglyphsLoop (fuel + 1) ⟨l, false, false, true⟩ wm fm acc = .ok (acc, ⟨[], true, true, true⟩, wm, fm) := by
  have hd : (l.dropWhile fun c => decide (c ≠ 10)) = [] := by
    have := (dropWhile_prefix (p := fun c => decide (c ≠ 10)) (a := l) (b := []) (fun c hc => by
      simp only [decide_eq_true_eq]
      rintro rfl
      exact h hc) (by simp)).1
    rwa [List.append_nil] at this
  have e : IS.ignore ⟨l, false, false, true⟩ 10 = ⟨[], true, false, true⟩ := by
    unfold IS.ignore IS.sentry IS.good
    simp only [Bool.not_false, Bool.and_self, Bool.not_true, Bool.false_eq_true, if_false, Bool.and_false, hd]
  rw [rglyphsLoop, e]
  simp [IS.uint, IS.sentry, IS.good]

theorem rglyphsLoop_header {l : List Nat} (h : 10 ∉ l) (fuel : Nat) (wm fm : StrMap) (acc : List (List View)) :
    rglyphsLoop (fuel + 1) ⟨l ++ [10], false, false, true⟩ wm fm acc = .ok (acc, ⟨[], true, true, true⟩, wm, fm) := by
  rw [rglyphsLoop, ignore_line h]
  simp [IS.uint, IS.sentry, IS.good]

theorem rglyphsLoop_foreign {l r : List Nat} (h : 10 ∉ l) (hr : Foreign r) :
    ∃ k, ∀ (fuel : Nat) (wm fm : StrMap) (acc : List (List View)),
      rglyphsLoop (fuel + 1) ⟨l ++ 10 :: r, false, false, true⟩ wm fm acc = .ok (acc, ⟨k, false, true, true⟩, wm, fm) := by
  obtain ⟨k, e, _⟩ := uint_foreign hr true (W32 - 1) 0
  refine ⟨k, fun fuel wm fm acc => ?_⟩
  rw [rglyphsLoop, ignore_line h]
  simp only [e, Bool.false_eq_true, if_false, if_true]

/-! ### Positions -/

theorem wwordsLoop_foreign : ∀ (fuel : Nat) (s : IS) (acc : List WWordLines) (es : List Entry) (q w r : List Nat), Live s →
    s.rest.length < fuel → EntryText s.rest es q → Word q w r → Foreign r →
    ∃ x, wwordsLoop fuel s acc = .ok x ∧ x.2.eof = false := by
  intro fuel
  induction fuel with
  | zero => intro s acc es q w r _ h; omega
  | succ fuel ih =>
    intro s acc es q w r hl hf he hw hr
    generalize ht : s.rest = t at he
    cases he with
    | stop =>
      obtain ⟨f1, _, f3⟩ := (str_iff hl [] w r).1 (by rw [ht]; exact hw)
      have hlive := str_live hl [] f1
      have hs : (s.str []).2 = ⟨r, false, false, true⟩ := by
        rcases hs : (s.str []).2 with ⟨a, b, c, d⟩
        rw [hs] at f1 f3 hlive
        simp only at f1 f3
        obtain ⟨_, l2, l3⟩ := hlive
        simp only at l2 l3
        subst f1 f3 l2
        cases b with
        | false => rfl
        | true =>
          obtain ⟨p, c, t, e, _⟩ := hr
          rw [l3 rfl] at e
          simp at e
      obtain ⟨k, hk, _⟩ := uint_foreign hr true (W32 - 1) 0
      have h0 : (IS.uint (W32 - 1) ⟨r, false, false, true⟩ 0).2.Stuck := by
        rw [hk]
        exact ⟨rfl, rfl⟩
      have hu := fun (s : IS) (h : s.Stuck) => (cuts_uint (W32 - 1) 0).stuck s h
      have hst : (wlinesRead (s.str []).2 ⟨0, 0, 0, 0⟩).2.Stuck := by
        rw [hs]
        exact hu _ (hu _ (hu _ h0))
      rw [wwordsLoop]
      simp only [hst.1, if_true]
      exact ⟨_, rfl, hst.2⟩
    | more _ r' _ en es' h1 h2 =>
      rw [← ht] at h1
      have hlen := hasEntry_shorter h1
      obtain ⟨f, _, _, _, _, _, er⟩ := (entry_iff hl en r').1 h1
      rw [← er] at h2
      obtain ⟨x, e, hx⟩ := ih _ (if (s.str []).1.length ≤ 8 then
        acc ++ [⟨(s.str []).1, (wlinesRead (s.str []).2 ⟨0, 0, 0, 0⟩).1⟩] else acc) es' q w r (pass_live hl f)
        (by rw [er]; omega) h2 hw hr
      refine ⟨x, ?_, hx⟩
      rw [wwordsLoop]
      simp only [f, Bool.false_eq_true, if_false]
      exact e

/-! ### `write_datas` -/

theorem datasLoop_foreign {r : List Nat} (h : Foreign r) : ∃ p k, r = p ++ k ∧ (∀ b ∈ p, Blank b) ∧ (∃ c t, k = c :: t ∧ ¬ Blank c) ∧
    ∀ (fuel : Nat) (d : Datas), datasLoop (fuel + 1) ⟨r, false, false, true⟩ d = .ok (d, ⟨k, false, true, true⟩) := by
  obtain ⟨k, e, hk⟩ := uint_foreign h true maxU 0
  obtain ⟨p, e1, hp, hc⟩ := hk rfl
  refine ⟨p, k, e1, hp, hc, fun fuel d => ?_⟩
  have hs : ∀ o, (⟨k, false, true, true⟩ : IS).uint maxU o = (o, ⟨k, false, true, true⟩) := by
    intro o
    simp [IS.uint, IS.sentry, IS.good]
  have hi : (imgRead ⟨r, false, false, true⟩ ⟨⟨0, 0⟩, []⟩).2 = ⟨k, false, true, true⟩ := by
    unfold imgRead boundsRead
    simp only [e, hs, if_true]
  rw [datasLoop]
  simp only [hi, hs, if_true]

/-- A picture at the end of a file. -/
theorem datasLoop_picture {i : Image} (h : i.WF) {p : List Nat} (hp : ∀ b ∈ p, Blank b) (fuel : Nat) (d : Datas) :
    datasLoop (fuel + 1) ⟨boundsWrite i.bounds ++ 32 :: (i.data.map UInt8.toNat ++ p), false, false, true⟩ d =
      .ok (d, ⟨[], true, true, true⟩) := by
  have := imgRead_write h [] p (by simp) ⟨⟨0, 0⟩, []⟩
  rw [List.nil_append] at this
  have hu : (⟨p, false, false, true⟩ : IS).uint maxU 0 = (0, ⟨[], true, true, true⟩) := by
    have := blank_skip p hp
    simp [IS.uint, IS.sentry, IS.good, this]
  rw [datasLoop, this]
  simp only [hu, if_true]

end Ppocr

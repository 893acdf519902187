import Verif.Proofs.Image
import Verif.Spec.ImageFile

namespace Ppocr
open Spec

/-! ### reading -/

theorem readLoop_ok (sched : List ReadEv) : ∀ (content : List UInt8) (remaining : Nat) (acc : List UInt8),
    (∀ ev ∈ sched, ev ≠ ReadEv.error) →
    readLoop sched content remaining acc =
      .ok ((acc ++ content.take remaining).map some ++
        List.replicate (remaining - content.length) none) := by
  induction sched with
  | nil =>
    intro content remaining acc _
    unfold readLoop
    simp only
    congr 1
    rw [show remaining - min remaining content.length = remaining - content.length by omega]
    congr 3
    rw [List.take_eq_take_iff]; omega
  | cons ev sched ih =>
    intro content remaining acc h
    unfold readLoop
    by_cases hc : remaining = 0 ∨ content = []
    · rw [if_pos hc]
      rcases hc with hc | hc <;> simp [hc]
    · rw [if_neg hc]
      have hr : 0 < remaining := by omega
      have hl : 0 < content.length := by
        rcases content with _ | ⟨c, t⟩
        · simp at hc
        · simp
      have hev := h ev (by simp)
      cases ev with
      | error => exact absurd rfl hev
      | some k =>
        simp only
        generalize hn : max 1 (min k (min remaining content.length)) = n
        have hn1 : n ≤ remaining := by omega
        have hn2 : n ≤ content.length := by omega
        rw [ih _ _ _ (fun e he => h e (by simp [he]))]
        congr 1
        congr 1
        · congr 1
          rw [List.append_assoc]
          congr 1
          conv => { rhs; rw [show remaining = n + (remaining - n) by omega] }
          rw [List.take_add]
        · rw [List.length_drop]
          congr 1
          omega

theorem readLoop_cases (sched : List ReadEv) : ∀ (content : List UInt8) (remaining : Nat) (acc : List UInt8),
    (readLoop sched content remaining acc =
      .ok ((acc ++ content.take remaining).map some ++
        List.replicate (remaining - content.length) none)) ∨
    (readLoop sched content remaining acc = .throw ∧ ReadEv.error ∈ sched) := by
  induction sched with
  | nil => intro c r a; left; exact readLoop_ok [] c r a (by simp)
  | cons ev sched ih =>
    intro content remaining acc
    by_cases hc : remaining = 0 ∨ content = []
    · left
      unfold readLoop
      rw [if_pos hc]
      rcases hc with hc | hc <;> simp [hc]
    · cases ev with
      | error => right; unfold readLoop; rw [if_neg hc]; simp
      | some k =>
        have hr : 0 < remaining := by omega
        have hl : 0 < content.length := by
          rcases content with _ | ⟨c, t⟩
          · simp at hc
          · simp
        unfold readLoop
        rw [if_neg hc]
        simp only
        generalize hn : max 1 (min k (min remaining content.length)) = n
        have hn1 : n ≤ remaining := by omega
        have hn2 : n ≤ content.length := by omega
        rcases ih (content.drop n) (remaining - n) (acc ++ content.take n) with h | ⟨h, h'⟩
        · left
          rw [h]
          congr 1
          congr 1
          · congr 1
            rw [List.append_assoc]
            congr 1
            conv => { rhs; rw [show remaining = n + (remaining - n) by omega] }
            rw [List.take_add]
          · rw [List.length_drop]
            congr 1
            omega
        · right; exact ⟨h, by simp [h']⟩

theorem mapM_some (l : List UInt8) : (l.map some).mapM id = some l := by
  induction l with
  | nil => rfl
  | cons a l ih => simp [ih]

/-! ### numbers -/

theorem isDigit_iff {c : UInt8} : isDigit c = true ↔ 48 ≤ c.toNat ∧ c.toNat ≤ 57 := by
  simp [isDigit]

theorem spanDigits_spec (l : List UInt8) :
    (spanDigits l).1 ++ (spanDigits l).2 = l ∧ (∀ c ∈ (spanDigits l).1, isDigit c = true) ∧
    (∀ c t, (spanDigits l).2 = c :: t → isDigit c = false) := by
  induction l with
  | nil => simp [spanDigits]
  | cons a l ih =>
    unfold spanDigits
    split
    · rename_i h
      refine ⟨by simp [ih.1], ?_, ih.2.2⟩
      intro c hc
      simp at hc
      rcases hc with rfl | hc
      · exact h
      · exact ih.2.1 c hc
    · rename_i h
      refine ⟨rfl, by simp, ?_⟩
      intro c t hct
      simp at hct
      simpa [← hct.1] using h

theorem spanDigits_append (d r : List UInt8) (hd : ∀ c ∈ d, isDigit c = true)
    (hr : ∀ c t, r = c :: t → isDigit c = false) : spanDigits (d ++ r) = (d, r) := by
  induction d with
  | nil =>
    cases r with
    | nil => rfl
    | cons c t => simp [spanDigits, hr c t rfl]
  | cons a d ih =>
    have := ih (fun c hc => hd c (by simp [hc]))
    simp [spanDigits, hd a (by simp), this]

theorem foldl_digits (l : List UInt8) : ∀ n,
    l.foldl (fun n c => n * 10 + (c.toNat - 48)) n = n * 10 ^ l.length + decimal l := by
  induction l with
  | nil => intro n; simp [decimal]
  | cons a l ih =>
    intro n
    simp only [List.foldl_cons, ih, decimal, List.length_cons, Nat.pow_succ, Nat.add_mul]
    rw [Nat.mul_assoc n 10, Nat.mul_comm 10]
    omega

theorem digitsVal_eq (l : List UInt8) : digitsVal l = decimal l := by
  unfold digitsVal; rw [foldl_digits]; simp

/-- `consume_uint` accepts exactly a 32-bit number followed by the separator. -/
theorem consumeUint_iff {p : List UInt8} {next : UInt8} (hn : isDigit next = false) {n : Nat}
    {t : List UInt8} :
    consumeUint p next = some (n, t) ↔ n < W32 ∧ ∃ d, IsNum d n ∧ p = d ++ [next] ++ t := by
  constructor
  · intro h
    unfold consumeUint fromChars at h
    obtain ⟨h1, h2, h3⟩ := spanDigits_spec p
    generalize spanDigits p = dr at h h1 h2 h3
    obtain ⟨d, r⟩ := dr
    simp only at h h1 h2 h3
    by_cases hd : d = []
    · simp [hd] at h
    · by_cases hv : digitsVal d < W32
      · simp only [hd, hv, if_true, if_false] at h
        cases r with
        | nil => simp at h
        | cons c r =>
          simp only at h
          split at h
          · rename_i hc
            simp at h
            obtain ⟨rfl, rfl⟩ := h
            subst hc
            refine ⟨hv, d, ⟨hd, fun c hc => isDigit_iff.1 (h2 c hc), (digitsVal_eq d).symm⟩, ?_⟩
            rw [← h1]; simp
          · simp at h
      · simp [hd, hv] at h
  · rintro ⟨hn', d, ⟨h1, h2, h3⟩, rfl⟩
    have hs : spanDigits (d ++ [next] ++ t) = (d, next :: t) := by
      rw [List.append_assoc]
      apply spanDigits_append
      · intro c hc; exact isDigit_iff.2 (h2 c hc)
      · intro c t' hct; simp at hct; rw [← hct.1]; exact hn
    unfold consumeUint fromChars
    rw [hs]
    simp only [h1, if_false, digitsVal_eq, h3, hn', if_true]

/-! ### comments -/

theorem skipComments_spec (l : List UInt8) :
    (∃ cs, IsComments cs ∧ l = cs ++ skipComments false l ∨ skipComments false l = []) ∧
    (∃ line cs, (10 : UInt8) ∉ line ∧ IsComments cs ∧ l = line ++ [10] ++ cs ++ skipComments true l ∨
      skipComments true l = []) := by
  induction l with
  | nil => simp [skipComments]
  | cons c t ih =>
    constructor
    · by_cases hc : c = 35
      · obtain ⟨_, line, cs, h⟩ := ih
        rcases h with ⟨h1, ⟨ls, h2, h3⟩, h4⟩ | h
        · refine ⟨35 :: (line ++ [10]) ++ cs, Or.inl ⟨⟨line :: ls, by simp [h2], ?_⟩, ?_⟩⟩
          · intro l hl; simp at hl
            rcases hl with rfl | hl
            · exact h1
            · exact h3 l hl
          · subst hc
            simp only [skipComments, if_true]
            conv => { lhs; rw [h4] }
            simp
        · exact ⟨[], Or.inr (by simp [skipComments, hc, h])⟩
      · exact ⟨[], Or.inl ⟨⟨[], by simp, by simp⟩, by simp [skipComments, hc]⟩⟩
    · by_cases hc : c = 10
      · obtain ⟨⟨cs, h⟩, _⟩ := ih
        rcases h with ⟨h1, h2⟩ | h
        · refine ⟨[], cs, Or.inl ⟨by simp, h1, ?_⟩⟩
          subst hc
          simp only [skipComments, if_true]
          conv => { lhs; rw [h2] }
          simp
        · exact ⟨[], [], Or.inr (by simp [skipComments, hc, h])⟩
      · obtain ⟨_, line, cs, h⟩ := ih
        rcases h with ⟨h1, h2, h3⟩ | h
        · refine ⟨c :: line, cs, Or.inl ⟨?_, h2, ?_⟩⟩
          · simp only [List.mem_cons, not_or]; exact ⟨fun e => hc e.symm, h1⟩
          · simp only [skipComments, hc, if_false]
            conv => { lhs; rw [h3] }
            simp
        · exact ⟨[], [], Or.inr (by simp [skipComments, hc, h])⟩

theorem skipComments_line (l r : List UInt8) (h : (10 : UInt8) ∉ l) :
    skipComments true (l ++ [10] ++ r) = skipComments false r := by
  induction l with
  | nil => simp [skipComments]
  | cons c t ih =>
    simp only [List.mem_cons, not_or] at h
    simp only [List.cons_append, skipComments]
    rw [if_neg (fun e => h.1 e.symm)]
    exact ih h.2

theorem skipComments_append {cs r : List UInt8} (h : IsComments cs) :
    skipComments false (cs ++ r) = skipComments false r := by
  obtain ⟨ls, rfl, h⟩ := h
  induction ls with
  | nil => simp
  | cons l ls ih =>
    have := ih (fun l hl => h l (by simp [hl]))
    simp only [List.flatMap_cons, List.cons_append, skipComments, if_true, List.append_assoc]
    have h2 := skipComments_line l (List.flatMap (fun l => 35 :: (l ++ [10])) ls ++ r) (h l (by simp))
    simp only [List.append_assoc, List.cons_append, List.nil_append] at h2 this ⊢
    rw [h2, this]

theorem skipComments_digit {d r : List UInt8} (hd : d ≠ []) (h : ∀ c ∈ d, 48 ≤ c.toNat ∧ c.toNat ≤ 57) :
    skipComments false (d ++ r) = d ++ r := by
  cases d with
  | nil => exact absurd rfl hd
  | cons c t =>
    have := h c (by simp)
    have hc : c ≠ 35 := by rintro rfl; simp at this
    simp [skipComments, hc]

/-- The parser accepts exactly the files of the format that have at least nine bytes. -/
theorem parseHeader_iff (buf : List UInt8) (ty : UInt8) (w h : Nat) (data : List UInt8) :
    (∃ m, parseHeader buf = some ⟨ty, w, h, m, data⟩) ↔ 9 ≤ buf.length ∧ PnmFile buf ty w h data := by
  have d32 : isDigit 32 = false := by decide
  have d10 : isDigit 10 = false := by decide
  constructor
  · rintro ⟨m, hp⟩
    unfold parseHeader at hp
    by_cases hl : buf.length < 9
    · simp [hl] at hp
    rw [if_neg hl] at hp
    refine ⟨by omega, ?_⟩
    match buf, hp with
    | [], hp => simp at hp
    | [_], hp => simp at hp
    | [_, _], hp => simp at hp
    | p0 :: ty' :: p2 :: p, hp =>
      simp only at hp
      split at hp
      · simp at hp
      · rename_i hmag
        simp only [not_or, ne_eq, Decidable.not_not] at hmag
        obtain ⟨rfl, ⟨ht1, ht2⟩, rfl⟩ := hmag
        split at hp
        · simp at hp
        · rename_i w' p' hw
          obtain ⟨hw1, dw, hdw, hp1⟩ := (consumeUint_iff d32).1 hw
          split at hp
          · simp at hp
          · rename_i h' p'' hh
            obtain ⟨hh1, dh, hdh, hp2⟩ := (consumeUint_iff d10).1 hh
            have hcs : ∃ cs, IsComments cs ∧ p = cs ++ skipComments false p := by
              obtain ⟨⟨cs, h | h⟩, _⟩ := skipComments_spec p
              · exact ⟨cs, h⟩
              · rw [h] at hp1; simp at hp1
            obtain ⟨cs, hcs1, hcs2⟩ := hcs
            have hbuf : (80 :: ty' :: 10 :: p : List UInt8) =
                [80, ty', 10] ++ cs ++ dw ++ [32] ++ dh ++ [10] ++ p'' := by
              conv => { lhs; rw [hcs2, hp1, hp2] }
              simp
            split at hp
            · rename_i htt
              split at hp
              · simp at hp
              · rename_i m' p3 hm
                obtain ⟨hm1, dm, hdm, hp3⟩ := (consumeUint_iff d10).1 hm
                simp at hp
                obtain ⟨rfl, rfl, rfl, rfl, rfl⟩ := hp
                refine ⟨by omega, by omega, hw1, hh1, cs, dw, dh, p'', hcs1, hdw, hdh, hbuf, ?_⟩
                rw [if_neg (by intro e; rcases e with e | e; exact htt.1 e; exact htt.2 e)]
                exact ⟨dm, _, hm1, hdm, hp3⟩
            · rename_i htt
              simp at hp
              obtain ⟨rfl, rfl, rfl, rfl, rfl⟩ := hp
              refine ⟨by omega, by omega, hw1, hh1, cs, dw, dh, p'', hcs1, hdw, hdh, hbuf, ?_⟩
              rw [if_pos]
              by_cases h49 : ty' = 49
              · exact Or.inl h49
              · by_cases h52 : ty' = 52
                · exact Or.inr h52
                · exact absurd ⟨h49, h52⟩ htt
  · rintro ⟨hlen, ht1, ht2, hw, hh, cs, dw, dh, tail, hcs, hdw, hdh, rfl, htail⟩
    unfold parseHeader
    rw [if_neg (by omega)]
    simp only [List.cons_append, List.nil_append]
    rw [if_neg (by simp; omega)]
    have e1 : skipComments false (cs ++ dw ++ [32] ++ dh ++ [10] ++ tail) =
        dw ++ [32] ++ (dh ++ [10] ++ tail) := by
      simp only [List.append_assoc]
      rw [skipComments_append hcs, skipComments_digit hdw.1 hdw.2.1]
    rw [e1, (consumeUint_iff d32).2 ⟨hw, dw, hdw, rfl⟩]
    simp only
    rw [(consumeUint_iff d10).2 ⟨hh, dh, hdh, rfl⟩]
    simp only
    by_cases htt : ty = 49 ∨ ty = 52
    · rw [if_pos htt] at htail
      rw [if_neg (by rcases htt with h | h <;> simp [h])]
      exact ⟨0, by rw [htail]⟩
    · rw [if_neg htt] at htail
      obtain ⟨dm, m, hm, hdm, htl⟩ := htail
      rw [if_pos (by simp only [not_or] at htt; exact htt)]
      rw [(consumeUint_iff d10).2 ⟨hm, dm, hdm, htl⟩]
      exact ⟨m, rfl⟩

/-! ### P6 -/

theorem luma_eq (r g b : UInt8) : luma r g b = brightness r g b ∧ brightness r g b ≤ 255 := by
  have hr := r.toNat_lt
  have hg := g.toNat_lt
  have hb := b.toNat_lt
  have : brightness r g b ≤ 255 := by unfold brightness; omega
  exact ⟨Nat.mod_eq_of_lt (Nat.lt_succ_of_le this), this⟩

/-- Pixel `k` of a P6 picture. -/
def p6Pixel (lum : Nat) (data : List UInt8) (k : Nat) : Pixel :=
  if brightness (data.getD (3 * k) 0) (data.getD (3 * k + 1) 0) (data.getD (3 * k + 2) 0) < lum
  then chDash else chX

theorem decodeP6_ok (lum : Nat) (n : Nat) : ∀ (data : List UInt8) (o : Out Pixel),
    data.length = n * 3 → o.done.length + n ≤ o.cap →
    decodeP6 lum data o = .ok ⟨o.cap, o.done ++ (List.range n).map (p6Pixel lum data)⟩ := by
  induction n with
  | zero =>
    intro data o h _
    cases data with
    | nil => simp [decodeP6]
    | cons => simp at h
  | succ n ih =>
    intro data o h hc
    match data, h with
    | [], h => simp at h
    | [_], h => simp at h; omega
    | [_, _], h => simp at h; omega
    | r :: g :: b :: t, h =>
      unfold decodeP6
      rw [Out.push_ok (by omega)]
      simp only [Res.ok_bind]
      rw [ih t _ (by simp at h; omega) (by simp; omega)]
      congr 2
      rw [List.append_assoc]
      congr 1
      rw [List.range_succ_eq_map, List.map_cons, List.map_map]
      simp only [List.cons_append, List.nil_append]
      congr 1
      simp [p6Pixel, (luma_eq r g b).1]

/-! ### P4 -/

/-- Pixel in column `x` of a P4 row starting at the head of `row`. -/
def p4Pixel (row : List UInt8) (x : Nat) : Pixel :=
  if (row.getD (x / 8) 0).toNat / 2 ^ (7 - x % 8) % 2 = 1 then chDash else chX

theorem shift_bit (b k : Nat) (hk : k < 8) : b * 2 ^ k / 128 % 2 = b / 2 ^ (7 - k) % 2 := by
  have : k = 0 ∨ k = 1 ∨ k = 2 ∨ k = 3 ∨ k = 4 ∨ k = 5 ∨ k = 6 ∨ k = 7 := by omega
  rcases this with rfl | rfl | rfl | rfl | rfl | rfl | rfl | rfl <;> simp <;> omega

theorem decodeP4Row_ok (row : List UInt8) (n : Nat) : ∀ (i c : Nat) (o : Out Pixel),
    i + n ≤ 2147483647 → (i + n + 7) / 8 ≤ row.length →
    (i % 8 ≠ 0 → c = (row.getD (i / 8) 0).toNat * 2 ^ (i % 8)) →
    o.done.length + n ≤ o.cap →
    decodeP4Row n i c (row.drop ((i + 7) / 8)) o =
      .ok (row.drop ((i + n + 7) / 8), ⟨o.cap, o.done ++ (List.range' i n).map (p4Pixel row)⟩) := by
  induction n with
  | zero => intro i c o _ _ _ _; simp [decodeP4Row]
  | succ n ih =>
    intro i c o hi hl hc hcap
    unfold decodeP4Row
    have hlt : i / 8 < row.length := by omega
    have hb := (row[i / 8]).toNat_lt
    have hg : row.getD (i / 8) 0 = row[i / 8] := by simp [List.getD, hlt]
    have step : fetchP4 i c (row.drop ((i + 7) / 8)) =
        .ok ((row[i / 8]).toNat * 2 ^ (i % 8), row.drop ((i + 1 + 7) / 8)) := by
      unfold fetchP4
      by_cases h0 : i % 8 = 0
      · rw [if_pos h0, show (i + 7) / 8 = i / 8 by omega, List.drop_eq_getElem_cons hlt]
        simp [h0, show (i + 1 + 7) / 8 = i / 8 + 1 by omega]
      · rw [if_neg h0, hc h0, hg, show (i + 7) / 8 = (i + 1 + 7) / 8 by omega]
    rw [step]
    simp only [Res.ok_bind]
    rw [Out.push_ok (by omega)]
    simp only [Res.ok_bind]
    rw [if_neg (by omega), ih (i + 1) _ _ (by omega) (by rw [show i + 1 + n = i + (n + 1) by omega]; exact hl) ?_ (by simp; omega)]
    · rw [show i + 1 + n = i + (n + 1) by omega]
      congr 3
      rw [List.append_assoc, List.range'_succ, List.map_cons]
      congr 1
      simp only [List.cons_append, List.nil_append]
      congr 1
      unfold p4Pixel
      rw [shift_bit _ _ (Nat.mod_lt _ (by decide)), hg]
    · intro h1
      have h2 : i % 8 + 1 = (i + 1) % 8 := by omega
      have h3 : i % 8 ≤ 6 := by omega
      rw [← h2, show (i + 1) / 8 = i / 8 by omega, hg, Nat.pow_succ, ← Nat.mul_assoc]
      apply umul_eq
      have h4 : 2 ^ (i % 8) ≤ 2 ^ 6 := Nat.pow_le_pow_right (by decide) h3
      have h5 : row[i / 8].toNat * 2 ^ (i % 8) ≤ 255 * 2 ^ 6 := Nat.mul_le_mul (by omega) h4
      simp only [W32]
      omega

theorem decodeP4_ok (w : Nat) (hw : w ≤ 2147483647) (data : List UInt8) (n : Nat) :
    ∀ (y : Nat) (o : Out Pixel), (y + n) * rowBytes w ≤ data.length →
    (y + n) * w ≤ o.cap →
    o.done = grid y w (fun r c => p4Pixel (data.drop (r * rowBytes w)) c) →
    decodeP4 w n (data.drop (y * rowBytes w)) o =
      .ok ⟨o.cap, grid (y + n) w (fun r c => p4Pixel (data.drop (r * rowBytes w)) c)⟩ := by
  induction n with
  | zero => intro y o _ _ ho; simp [decodeP4, ← ho]
  | succ n ih =>
    intro y o hl hc ho
    unfold decodeP4
    have h1 : (y + 1) * rowBytes w ≤ (y + (n + 1)) * rowBytes w := Nat.mul_le_mul_right _ (by omega)
    have h2 : (y + 1) * w ≤ (y + (n + 1)) * w := Nat.mul_le_mul_right _ (by omega)
    rw [Nat.add_mul, Nat.one_mul] at h1 h2
    have key := decodeP4Row_ok (data.drop (y * rowBytes w)) w 0 0 o (by omega)
      (by rw [List.length_drop, Nat.zero_add]; show rowBytes w ≤ _; omega) (by simp)
      (by rw [ho, grid_length]; omega)
    simp only [Nat.zero_add, show 7 / 8 = 0 from rfl, List.drop_zero] at key
    rw [key]
    simp only [Res.ok_bind]
    rw [List.drop_drop, show y * rowBytes w + (w + 7) / 8 = (y + 1) * rowBytes w by
      rw [Nat.add_mul, Nat.one_mul]; rfl]
    rw [ih (y + 1) _ (by rw [show y + 1 + n = y + (n + 1) by omega]; exact hl)
      (by rw [show y + 1 + n = y + (n + 1) by omega]; exact hc) ?_]
    · rw [show y + 1 + n = y + (n + 1) by omega]
    · rw [grid_succ, ho, List.range_eq_range']

/-! ### ASCII -/

theorem decodeAscii_spec (N : Nat) (data : List UInt8) : ∀ (k : Nat) (o : Out Pixel),
    o.done.length = k → k < N → o.cap = N →
    (AsciiData data ∧ k + (digits data).length < N ∧
      decodeAscii N data k o = .ok ([], ⟨o.cap, o.done ++ (digits data).map digitPixel⟩)) ∨
    ((¬ (AsciiData data ∧ k + (digits data).length < N)) ∧
      (decodeAscii N data k o = .throw ∨
       ∃ c t o', decodeAscii N data k o = .ok (c :: t, o') ∧ (c = 48 ∨ c = 49) )) := by
  induction data with
  | nil => intro k o hk hN hc; left; simp [decodeAscii, AsciiData, digits, hN]
  | cons c t ih =>
    intro k o hk hN hcap
    unfold decodeAscii
    have sep : c = 32 ∨ c = 10 → (AsciiData (c :: t) ↔ AsciiData t) ∧ digits (c :: t) = digits t := by
      intro h
      constructor
      · unfold AsciiData
        constructor
        · intro h' x hx; exact h' x (by simp [hx])
        · intro h' x hx
          simp at hx
          rcases hx with rfl | hx
          · rcases h with h | h <;> simp [h]
          · exact h' x hx
      · rcases h with h | h <;> simp [digits, h]
    have dig : c = 48 ∨ c = 49 → (AsciiData (c :: t) ↔ AsciiData t) ∧ digits (c :: t) = c :: digits t := by
      intro h
      constructor
      · unfold AsciiData
        constructor
        · intro h' x hx; exact h' x (by simp [hx])
        · intro h' x hx
          simp at hx
          rcases hx with rfl | hx
          · rcases h with h | h <;> simp [h]
          · exact h' x hx
      · rcases h with h | h <;> simp [digits, h]
    have step : ∀ (hd : c = 48 ∨ c = 49),
        (AsciiData (c :: t) ∧ k + (digits (c :: t)).length < N ∧
          (do let o ← o.push (digitPixel c)
              if k + 1 = N then .ok (c :: t, o) else decodeAscii N t (k + 1) o) =
            Res.ok (([] : List UInt8), (⟨o.cap, o.done ++ (digits (c :: t)).map digitPixel⟩ : Out Pixel))) ∨
        ((¬ (AsciiData (c :: t) ∧ k + (digits (c :: t)).length < N)) ∧
          ((do let o ← o.push (digitPixel c)
               if k + 1 = N then .ok (c :: t, o) else decodeAscii N t (k + 1) o) = Res.throw ∨
           ∃ c' t' o', (do let o ← o.push (digitPixel c)
                           if k + 1 = N then .ok (c :: t, o) else decodeAscii N t (k + 1) o) =
              Res.ok ((c' :: t', o') : List UInt8 × Out Pixel) ∧ (c' = 48 ∨ c' = 49))) := by
      intro hd
      obtain ⟨d1, d2⟩ := dig hd
      rw [Out.push_ok (by omega)]
      simp only [Res.ok_bind]
      by_cases hk1 : k + 1 = N
      · right
        refine ⟨?_, Or.inr ⟨c, t, _, by rw [if_pos hk1], hd⟩⟩
        rw [d2]; simp; omega
      · rw [if_neg hk1]
        rcases ih (k + 1) ⟨o.cap, o.done ++ [digitPixel c]⟩ (by simp [hk]) (by omega) hcap with
          ⟨h1, h2, h3⟩ | ⟨h1, h2⟩
        · left
          refine ⟨d1.2 h1, by rw [d2]; simp; omega, ?_⟩
          rw [h3, d2]; simp
        · right
          refine ⟨?_, h2⟩
          rw [d1, d2]
          intro ⟨a, b⟩
          exact h1 ⟨a, by simp at b; omega⟩
    by_cases h32 : c = 32
    · rw [if_pos h32]
      obtain ⟨s1, s2⟩ := sep (Or.inl h32)
      rw [s1, s2]; exact ih k o hk hN hcap
    · rw [if_neg h32]
      by_cases h48 : c = 48
      · rw [if_pos h48]
        have := step (Or.inl h48)
        rwa [show digitPixel c = chDash by simp [digitPixel, h48]] at this
      · rw [if_neg h48]
        by_cases h49 : c = 49
        · rw [if_pos h49]
          have := step (Or.inr h49)
          rwa [show digitPixel c = chX by simp [digitPixel, h49]] at this
        · rw [if_neg h49]
          by_cases h10 : c = 10
          · rw [if_pos h10]
            obtain ⟨s1, s2⟩ := sep (Or.inr h10)
            rw [s1, s2]; exact ih k o hk hN hcap
          · rw [if_neg h10]
            right
            refine ⟨?_, Or.inl rfl⟩
            intro ⟨a, _⟩
            have := a c (by simp)
            simp_all

end Ppocr

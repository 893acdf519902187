import Verif.Model.Double
import Verif.Spec.Rounding
import Verif.Proofs.SortFree
import Verif.Proofs.Recognise

/-! # Helper lemmas: the rounding of `double` -/

namespace Ppocr
open Spec

set_option exponentiation.threshold 2000

/-! ### One operation -/

theorem nearInt_err (num : Nat) {u : Nat} (hu : 0 < u) :
    2 * (nearInt num u * u) ≤ 2 * num + u ∧ 2 * num ≤ 2 * (nearInt num u * u) + u := by
  have e := Nat.div_add_mod num u
  have hm := Nat.mod_lt num hu
  have e1 : (num / u) * u = u * (num / u) := Nat.mul_comm _ _
  have e2 : (num / u + 1) * u = u * (num / u) + u := by rw [Nat.add_mul, e1, Nat.one_mul]
  unfold nearInt
  repeat' split
  all_goals first | rw [e1] | rw [e2]
  all_goals omega

/-- A normal number is rounded by one part in 2^53 at most. -/
theorem round53_err {num den : Nat} (hden : 0 < den) (h : 2 ^ 52 * den ≤ num) :
    round53 num den * den * 2 ^ 53 ≤ num * (2 ^ 53 + 1) ∧ num * (2 ^ 53 - 1) ≤ round53 num den * den * 2 ^ 53 := by
  unfold round53
  generalize he : beyond53 (num / den) = e
  have hu := unit_pos hden e
  have hbig : 2 ^ 52 * (den * 2 ^ e) ≤ num := by
    rcases Nat.eq_zero_or_pos e with h0 | h0
    · subst h0
      rw [Nat.pow_zero, Nat.mul_one]
      exact h
    · have := beyond53_ge (q := num / den) (by omega)
      rw [he, Nat.le_div_iff_mul_le hden, Nat.pow_add] at this
      rw [Nat.mul_comm den, ← Nat.mul_assoc]
      exact this
  obtain ⟨h1, h2⟩ := nearInt_err num hu
  have e1 : nearInt num (den * 2 ^ e) * 2 ^ e * den = nearInt num (den * 2 ^ e) * (den * 2 ^ e) := by
    rw [Nat.mul_assoc, Nat.mul_comm (2 ^ e)]
  rw [e1]
  omega

/-- The numbers with 53 binary digits. -/
def prec : Nat := 2 ^ 53

/-- `x` units of 2^-1074 are `N / D` after at most `m` roundings. -/
structure Rounded (m x N D : Nat) : Prop where
  le : x * D * prec ^ m ≤ N * unit1 * (prec + 1) ^ m
  ge : N * unit1 * (prec - 1) ^ m ≤ x * D * prec ^ m

theorem Rounded.mono {m x N D : Nat} (h : Rounded m x N D) : Rounded (m + 1) x N D := by
  constructor
  · rw [Nat.pow_succ, Nat.pow_succ, ← Nat.mul_assoc, ← Nat.mul_assoc]
    exact Nat.mul_le_mul h.le (Nat.le_succ _)
  · rw [Nat.pow_succ, Nat.pow_succ, ← Nat.mul_assoc, ← Nat.mul_assoc]
    exact Nat.mul_le_mul h.ge (Nat.sub_le _ _)

theorem Rounded.upto {m n x N D : Nat} (h : Rounded m x N D) (hn : m ≤ n) : Rounded n x N D := by
  obtain ⟨k, rfl⟩ := Nat.le.dest hn
  induction k with
  | zero => exact h
  | succ k ih => exact (ih (by omega)).mono

theorem Rounded.scale {m x N D : Nat} (h : Rounded m x N D) (k : Nat) : Rounded m x (N * k) (D * k) := by
  constructor
  · have := Nat.mul_le_mul_right k h.le
    calc x * (D * k) * prec ^ m = x * D * prec ^ m * k := by ac_rfl
      _ ≤ _ := this
      _ = _ := by ac_rfl
  · have := Nat.mul_le_mul_right k h.ge
    calc N * k * unit1 * (prec - 1) ^ m = N * unit1 * (prec - 1) ^ m * k := by ac_rfl
      _ ≤ _ := this
      _ = _ := by ac_rfl

/-- The product of two rounded numbers, rounded. -/
theorem Rounded.mul {m1 m2 x y N1 N2 D1 D2 : Nat} (h1 : Rounded m1 x N1 D1) (h2 : Rounded m2 y N2 D2)
    (hb : 2 ^ 52 * unit1 ≤ x * y) : Rounded (m1 + m2 + 1) (round53 (x * y) unit1) (N1 * N2) (D1 * D2) := by
  obtain ⟨e1, e2⟩ := round53_err unit1_pos hb
  obtain ⟨a1, b1⟩ := h1
  obtain ⟨a2, b2⟩ := h2
  have hU := unit1_pos
  generalize round53 (x * y) unit1 = z at *
  change _ * prec ≤ _ * (prec + 1) at e1
  change _ * (prec - 1) ≤ _ * prec at e2
  constructor <;> generalize unit1 = U at * <;> generalize prec + 1 = C at * <;> generalize prec - 1 = A at * <;>
    generalize prec = B at *
  · apply Nat.le_of_mul_le_mul_left (c := U) _ hU
    calc U * (z * (D1 * D2) * B ^ (m1 + m2 + 1)) = z * U * B * ((D1 * B ^ m1) * (D2 * B ^ m2)) := by
          rw [Nat.pow_succ, Nat.pow_add]; ac_rfl
      _ ≤ x * y * C * ((D1 * B ^ m1) * (D2 * B ^ m2)) := Nat.mul_le_mul_right _ e1
      _ = (x * D1 * B ^ m1) * (y * D2 * B ^ m2) * C := by ac_rfl
      _ ≤ (N1 * U * C ^ m1) * (N2 * U * C ^ m2) * C := Nat.mul_le_mul_right _ (Nat.mul_le_mul a1 a2)
      _ = U * (N1 * N2 * U * C ^ (m1 + m2 + 1)) := by rw [Nat.pow_succ, Nat.pow_add]; ac_rfl
  · apply Nat.le_of_mul_le_mul_left (c := U) _ hU
    calc U * (N1 * N2 * U * A ^ (m1 + m2 + 1)) = (N1 * U * A ^ m1) * (N2 * U * A ^ m2) * A := by
          rw [Nat.pow_succ, Nat.pow_add]; ac_rfl
      _ ≤ (x * D1 * B ^ m1) * (y * D2 * B ^ m2) * A := Nat.mul_le_mul_right _ (Nat.mul_le_mul b1 b2)
      _ = x * y * A * ((D1 * B ^ m1) * (D2 * B ^ m2)) := by ac_rfl
      _ ≤ z * U * B * ((D1 * B ^ m1) * (D2 * B ^ m2)) := Nat.mul_le_mul_right _ e2
      _ = U * (z * (D1 * D2) * B ^ (m1 + m2 + 1)) := by rw [Nat.pow_succ, Nat.pow_add]; ac_rfl

/-- At least 2^-p. -/
def Big (p x : Nat) : Prop := ∃ k, k + p = 1074 ∧ 2 ^ k ≤ x

theorem Big.mul {p q x y : Nat} (h1 : Big p x) (h2 : Big q y) (h : p + q ≤ 1022) :
    2 ^ 52 * unit1 ≤ x * y ∧ Big (p + q) (round53 (x * y) unit1) := by
  obtain ⟨k1, e1, b1⟩ := h1
  obtain ⟨k2, e2, b2⟩ := h2
  have hm : 2 ^ (1074 - (p + q)) * unit1 ≤ x * y := by
    have := Nat.mul_le_mul b1 b2
    rw [← Nat.pow_add] at this
    unfold unit1
    rw [← Nat.pow_add]
    rwa [show 1074 - (p + q) + 1074 = k1 + k2 by omega]
  refine ⟨Nat.le_trans (Nat.mul_le_mul_right _ (Nat.pow_le_pow_right (by omega) (by omega))) hm, 1074 - (p + q), by omega, ?_⟩
  have := round53_mono unit1_pos hm
  rwa [round53_exact unit1_pos (digits_pow _)] at this

theorem ofPct_50 : (Double.ofPct 50).n = 2 ^ 1073 := by decide +kernel

theorem ofPct_big {c : Nat} (h : 50 ≤ c) : Big 1 (Double.ofPct c).n :=
  ⟨1073, rfl, by rw [← ofPct_50]; exact ofPct_mono h⟩

theorem ofPct_rounded {c : Nat} (h : 50 ≤ c) (h' : c ≤ 100) : Rounded 1 (Double.ofPct c).n c 100 := by
  have e : (Double.ofPct c).n = round53 (c * unit1 * unit1) (100 * unit1) := by
    unfold Double.ofPct
    rw [Double.div_n _ (by omega) (by omega), ofNat_small (by omega)]
  have hU := unit1_pos
  have hb : 2 ^ 52 * (100 * unit1) ≤ c * unit1 * unit1 := by
    rw [← Nat.mul_assoc]
    apply Nat.mul_le_mul_right
    have : 50 * unit1 ≤ c * unit1 := Nat.mul_le_mul_right _ h
    have h2 : 2 ^ 52 * 100 ≤ 50 * unit1 := by unfold unit1; decide
    omega
  obtain ⟨e1, e2⟩ := round53_err (Nat.mul_pos (by omega) hU) hb
  rw [e]
  generalize round53 (c * unit1 * unit1) (100 * unit1) = z at *
  constructor
  · apply Nat.le_of_mul_le_mul_left (c := unit1) _ hU
    rw [Nat.pow_one, Nat.pow_one]
    calc _ = z * (100 * unit1) * prec := by ac_rfl
      _ ≤ _ := e1
      _ = _ := by ac_rfl
  · apply Nat.le_of_mul_le_mul_left (c := unit1) _ hU
    rw [Nat.pow_one, Nat.pow_one]
    calc _ = c * unit1 * unit1 * (prec - 1) := by ac_rfl
      _ ≤ _ := e2
      _ = _ := by ac_rfl

/-! ### Products -/

/-- The probability of a list of percentages. -/
def product {P : Type} [Dbl P] : List Nat → P
  | [] => Dbl.ofPct 100
  | c :: cs => cs.foldl (fun x c => Dbl.mul x (Dbl.ofPct c)) (Dbl.ofPct c)

theorem foldl_rounded : ∀ (cs : List Nat) (d : Double) (m p N D : Nat), Rounded m d.n N D → Big p d.n →
    (∀ c ∈ cs, 50 ≤ c ∧ c ≤ 100) → p + cs.length ≤ 1022 →
    Rounded (m + 2 * cs.length) (cs.foldl (fun x c => Dbl.mul x (Dbl.ofPct c)) d).n (cs.foldl (· * ·) N) (D * 100 ^ cs.length) ∧
      Big (p + cs.length) (cs.foldl (fun x c => Dbl.mul x (Dbl.ofPct c)) d).n
  | [], d, m, p, N, D, h, hb, _, _ => by simpa using ⟨h, hb⟩
  | c :: cs, d, m, p, N, D, h, hb, hc, hl => by
    obtain ⟨c1, c2⟩ := hc c (by simp)
    simp only [List.length_cons] at hl
    obtain ⟨k1, k2⟩ := hb.mul (ofPct_big c1) (by omega)
    have h1 : Rounded (m + 1 + 1) (Dbl.mul d (Dbl.ofPct c)).n (N * c) (D * 100) := h.mul (ofPct_rounded c1 c2) k1
    obtain ⟨r1, r2⟩ := foldl_rounded cs (Dbl.mul d (Dbl.ofPct c)) _ _ _ _ h1 k2 (fun x hx => hc x (by simp [hx])) (by omega)
    rw [List.foldl_cons, List.foldl_cons, List.length_cons]
    refine ⟨?_, ?_⟩
    · rw [show m + 2 * (cs.length + 1) = m + 1 + 1 + 2 * cs.length by omega, Nat.pow_succ]
      rw [Nat.mul_assoc, Nat.mul_comm 100] at r1
      exact r1
    · rw [show p + (cs.length + 1) = p + 1 + cs.length by omega]
      exact r2

/-- What `double` makes of a product of percentages. -/
theorem product_rounded {cs : List Nat} (hc : ∀ c ∈ cs, 50 ≤ c ∧ c ≤ 100) (h0 : cs ≠ []) (hl : cs.length ≤ 1000) :
    Rounded (2 * cs.length) (product cs : Double).n (cs.foldl (· * ·) 1) (100 ^ cs.length) ∧ Big cs.length (product cs : Double).n := by
  cases cs with
  | nil => exact absurd rfl h0
  | cons c cs =>
    obtain ⟨c1, c2⟩ := hc c (by simp)
    simp only [List.length_cons] at hl
    obtain ⟨r1, r2⟩ := foldl_rounded cs (Double.ofPct c) _ _ _ _ (ofPct_rounded c1 c2) (ofPct_big c1)
      (fun x hx => hc x (by simp [hx])) (by omega)
    refine ⟨?_, ?_⟩
    · rw [List.foldl_cons, Nat.one_mul, List.length_cons, Nat.pow_succ, Nat.mul_comm (100 ^ _)]
      exact r1.upto (by omega)
    · rw [List.length_cons, Nat.add_comm]
      exact r2

theorem foldl_frac : ∀ (cs : List Nat) (f : Frac),
    cs.foldl (fun x c => Dbl.mul x (Dbl.ofPct c)) f = ⟨cs.foldl (· * ·) f.n, f.e + cs.length⟩
  | [], f => rfl
  | c :: cs, f => by
    rw [List.foldl_cons, foldl_frac cs, List.foldl_cons, List.length_cons]
    show Frac.mk _ (f.e + 1 + cs.length) = Frac.mk _ _
    rw [show f.e + 1 + cs.length = f.e + (cs.length + 1) by omega]
    rfl

theorem product_frac {cs : List Nat} (h0 : cs ≠ []) : (product cs : Frac) = ⟨cs.foldl (· * ·) 1, cs.length⟩ := by
  cases cs with
  | nil => exact absurd rfl h0
  | cons c cs =>
    show cs.foldl (fun x c => Dbl.mul x (Dbl.ofPct c)) (Dbl.ofPct c : Frac) = _
    rw [foldl_frac, List.foldl_cons, Nat.one_mul, List.length_cons]
    show Frac.mk _ (1 + cs.length) = _
    rw [Nat.add_comm]
    rfl

/-- Numbers that are apart are in order after 256 roundings. -/
theorem rounded_lt {x y N M D : Nat} (h1 : Rounded 256 x N D) (h2 : Rounded 256 y M D) (h : N * (2 ^ 40 + 1) < M * 2 ^ 40) : x < y := by
  rcases Nat.lt_or_ge x y with hlt | hge
  · exact hlt
  exfalso
  have h3 : M * unit1 * (prec - 1) ^ 256 ≤ N * unit1 * (prec + 1) ^ 256 :=
    Nat.le_trans h2.ge (Nat.le_trans (Nat.mul_le_mul_right _ (Nat.mul_le_mul_right _ hge)) h1.le)
  have h4 : M * (prec - 1) ^ 256 ≤ N * (prec + 1) ^ 256 := by
    apply Nat.le_of_mul_le_mul_left (c := unit1) _ unit1_pos
    calc _ = M * unit1 * (prec - 1) ^ 256 := by ac_rfl
      _ ≤ _ := h3
      _ = _ := by ac_rfl
  have h5 : 2 ^ 40 * (prec + 1) ^ 256 ≤ (2 ^ 40 + 1) * (prec - 1) ^ 256 := by decide +kernel
  have h6 : 0 < (prec - 1) ^ 256 := Nat.pow_pos (by decide)
  have h7 : M * 2 ^ 40 * (prec - 1) ^ 256 ≤ N * (2 ^ 40 + 1) * (prec - 1) ^ 256 := by
    calc _ = 2 ^ 40 * (M * (prec - 1) ^ 256) := by ac_rfl
      _ ≤ 2 ^ 40 * (N * (prec + 1) ^ 256) := Nat.mul_le_mul_left _ h4
      _ = N * (2 ^ 40 * (prec + 1) ^ 256) := by ac_rfl
      _ ≤ N * ((2 ^ 40 + 1) * (prec - 1) ^ 256) := Nat.mul_le_mul_left _ h5
      _ = _ := by ac_rfl
  have h8 := Nat.le_of_mul_le_mul_right h7 h6
  omega

/-! ### One letter, computed with two kinds of numbers -/

section
variable {P Q : Type} [MonoDbl P] [MonoDbl Q]

/-- The same tables for two kinds of numbers. -/
structure AlikeTables (s : Setup P) (s' : Setup Q) (n : Nat) : Prop where
  first : s.first = s'.first
  simple : s.simple = s'.simple
  complex : s.complex = s'.complex
  exclusive : s.exclusive = s'.exclusive
  byWords : s.byWords = s'.byWords
  glyphs : s.glyphs = s'.glyphs
  some : s'.complex ≠ []
  limit : s.limit = Dbl.ofPct 50
  limit' : s'.limit = Dbl.ofPct 50
  ids : ∀ i j, i < n → j < n → (s.ids.getD i 0 = s.ids.getD j 0 ↔ s'.ids.getD i 0 = s'.ids.getD j 0)

theorem best_filter {ids : List Nat} {U T : List (Nat × P)} (ok : Nat × P → Bool)
    (up : ∀ p ∈ U, ∀ q ∈ U, Dbl.le p.2 q.2 = true → ok p = true → ok q = true) (h : Best ids U T) :
    Best ids (U.filter ok) (T.filter ok) := by
  refine ⟨?_, h.distinct.sublist List.filter_sublist, h.sorted.sublist List.filter_sublist, ?_⟩
  · intro p hp
    obtain ⟨h1, h2⟩ := List.mem_filter.1 hp
    exact List.mem_filter.2 ⟨h.sub p h1, h2⟩
  · intro u hu
    obtain ⟨h1, h2⟩ := List.mem_filter.1 hu
    obtain ⟨p, hp, e, l⟩ := h.cover u h1
    exact ⟨p, List.mem_filter.2 ⟨hp, up u h1 p (h.sub p hp) l h2⟩, e, l⟩

/-- Other numbers in the same order. -/
theorem best_map {ids : List Nat} {U T : List (Nat × P)} (f : Nat → Q)
    (hf : ∀ p ∈ U, ∀ q ∈ U, Dbl.le p.2 q.2 = true → Dbl.le (f p.1) (f q.1) = true) (h : Best ids U T) :
    Best ids (U.map fun p => (p.1, f p.1)) (T.map fun p => (p.1, f p.1)) := by
  refine ⟨?_, ?_, ?_, ?_⟩
  · intro p hp
    obtain ⟨q, hq, rfl⟩ := List.mem_map.1 hp
    exact List.mem_map.2 ⟨q, h.sub q hq, rfl⟩
  · rw [List.pairwise_map]
    exact h.distinct
  · rw [List.pairwise_map]
    refine List.Pairwise.imp_of_mem ?_ h.sorted
    intro a b ha hb l
    exact hf b (h.sub b hb) a (h.sub a ha) l
  · intro u hu
    obtain ⟨q, hq, rfl⟩ := List.mem_map.1 hu
    obtain ⟨p, hp, e, l⟩ := h.cover q hq
    exact ⟨_, List.mem_map.2 ⟨p, hp, rfl⟩, e, hf q hq p (h.sub p hp) l⟩

/-- The best of the same candidates, in the same order for two kinds of numbers. -/
theorem best_agree {ids ids' : List Nat} {U T : List (Nat × P)} {U' T' : List (Nat × Q)} {β : Type} (v : Nat → β) (f : Nat → Q)
    (ok : Nat × P → Bool) (okm ok' : Nat × Q → Bool) (hT : Best ids U T) (hT' : Best ids' U' T')
    (hU : ∀ q, q ∈ U' ↔ q ∈ U.map fun p => (p.1, f p.1))
    (hid : ∀ p ∈ U, ∀ q ∈ U, ids.getD p.1 0 = ids.getD q.1 0 ↔ ids'.getD p.1 0 = ids'.getD q.1 0)
    (hf : ∀ p ∈ U, ∀ q ∈ U, Dbl.le p.2 q.2 = true → Dbl.le (f p.1) (f q.1) = true)
    (h1 : ∀ p ∈ T, ok p = okm (p.1, f p.1))
    (h2 : ∀ p ∈ U', ∀ q ∈ U', Dbl.le p.2 q.2 = true → Dbl.le q.2 p.2 = true → okm p = ok' q)
    (tie : ∀ p ∈ U', ∀ q ∈ U', ok' p = true → ok' q = true → Dbl.le p.2 q.2 = true → Dbl.le q.2 p.2 = true → v p.1 = v q.1) :
    (T.filter ok).map (fun p => v p.1) = (T'.filter ok').map (fun p => v p.1) := by
  have hm := best_map f hf hT
  have e : (T.filter ok).map (fun p => v p.1) = ((T.map fun p => (p.1, f p.1)).filter okm).map (fun p : Nat × Q => v p.1) := by
    rw [List.filter_map, List.map_map]
    have : T.filter ok = T.filter (okm ∘ fun p => (p.1, f p.1)) := List.filter_congr fun p hp => h1 p hp
    rw [this]
    rfl
  rw [e]
  refine best_same (fun p : Nat × Q => v p.1) okm ok' (fun p => (hU p).symm) ?_ hm hT' ?_ ?_
  · intro p hp q hq
    obtain ⟨p', hp', rfl⟩ := List.mem_map.1 hp
    obtain ⟨q', hq', rfl⟩ := List.mem_map.1 hq
    exact hid p' hp' q' hq'
  · intro p hp q hq
    exact h2 p ((hU p).2 (hm.sub p hp)) q (hT'.sub q hq)
  · intro p hp q hq k1 k2 l1 l2
    have hp' := (hU p).2 (hm.sub p hp)
    have hq' := hT'.sub q hq
    refine tie p hp' q hq' ?_ k2 l1 l2
    rw [← h2 p hp' p hp' (le_refl_P _) (le_refl_P _)]
    exact k1

theorem simpleProb_product (s : Setup P) (a r : Image) (g : Nat) : simpleProb s a r g = product (simplePercents s a r g) := by
  unfold simpleProb score simplePercents
  show _ = (s.simple.map _).foldl _ _
  rw [List.foldl_map]

theorem fullProb_product (s : Setup P) (a r : Image) (g : Nat) : fullProb s a r g = product (percents s a r g) := by
  unfold fullProb complexScore percents
  rw [simpleProb_product]
  show s.complex.foldl _ ((s.simple.map _).foldl _ _) = ((s.simple.map _) ++ _).foldl _ _
  rw [List.foldl_append, List.foldl_map (l := s.complex)]

/-- The percentage is at least 50, whatever the numbers. -/
theorem le_half_pct {c : Nat} (hc : c ≤ 100) : Dbl.le (Dbl.ofPct 50 : P) (Dbl.ofPct c) = decide (50 ≤ c) := by
  rcases Nat.lt_or_ge c 50 with h | h
  · rw [ScoreDbl.pct_lt 50 c h (by omega), decide_eq_false (by omega)]
  · rw [decide_eq_true h]
    rcases Nat.lt_or_ge 50 c with h1 | h1
    · exact LawfulDbl.total _ _ (ScoreDbl.pct_lt c 50 h1 hc)
    · rw [show c = 50 by omega]
      exact le_refl_P _

theorem simOf_le {s : Strat} {a r : Image} {n g : Nat} (h : Safe s a r n) : simOf s a r g ≤ 100 := by
  obtain ⟨v, e, hw⟩ := h.ok
  unfold simOf
  rw [e, Res.ok_bind]
  unfold rd
  cases ht : s.tab[g]? with
  | none => exact Nat.zero_le _
  | some w =>
    obtain ⟨⟨c, e1, hc⟩, _⟩ := hw w (List.mem_of_getElem? ht)
    show valueOr 0 (s.rel.compute v w) ≤ 100
    rw [e1]
    exact hc

theorem complexKeep_iff {ss : List Strat} {a r : Image} {n g : Nat} (h : ∀ t ∈ ss, Safe t a r n) :
    complexKeep P ss a r g = ss.all fun t => decide (50 ≤ simOf t a r g) := by
  unfold complexKeep
  rw [Bool.eq_iff_iff, List.all_eq_true, List.all_eq_true]
  exact forall_congr' fun t => forall_congr' fun ht => by rw [le_half_pct (simOf_le (h t ht))]

theorem near_sim {tab : List Nat} {k v g : Nat} (hk : 0 < k) (h : Near tab v (k / 10) g) : 50 ≤ sim k (tab.getD g 0) v := by
  obtain ⟨t, e, h1, h2⟩ := h
  rw [List.getD_eq_getElem?_getD, e]
  show 50 ≤ sim k t v
  unfold sim
  have h3 : (t - v + (v - t)) * 100 / k ≤ 10 := by
    have : (t - v + (v - t)) * 100 ≤ 10 * k := by omega
    exact Nat.div_le_of_le_mul (by omega)
  omega

theorem percents_in {s : Setup P} {val : Simple → Nat} {n : Nat} {a r : Image} (ok : SetupOk s val n a r) {g : Nat}
    (h : Left s a r g) : ∀ c ∈ percents s a r g, 50 ≤ c ∧ c ≤ 100 := by
  intro c hc
  rcases List.mem_append.1 hc with hc | hc
  · obtain ⟨t, ht, rfl⟩ := List.mem_map.1 hc
    exact ⟨near_sim (ok.simple t ht).pos (h.1 t ht), sim_le _ _ _⟩
  · obtain ⟨t, ht, rfl⟩ := List.mem_map.1 hc
    have := h.2.1
    rw [complexKeep_iff ok.complex, List.all_eq_true] at this
    exact ⟨of_decide_eq_true (this t ht), simOf_le (ok.complex t ht)⟩

theorem simpleProb_perfect (s : Setup P) (a r : Image) (g : Nat) :
    Dbl.le (Dbl.ofPct 100) (simpleProb s a r g) = true ↔ ∀ c ∈ simplePercents s a r g, c = 100 := by
  unfold simpleProb
  rw [score_perfect]
  unfold simplePercents
  simp only [List.mem_map, forall_exists_index, and_imp, forall_apply_eq_imp_iff₂]

theorem foldl_at_most (cs : List Nat) (hc : ∀ c ∈ cs, c ≤ 100) : ∀ x : P, Dbl.le (cs.foldl (fun x c => Dbl.mul x (Dbl.ofPct c)) x) x = true := by
  induction cs with
  | nil => exact fun x => le_refl_P _
  | cons c cs ih =>
    intro x
    exact LawfulDbl.trans _ _ _ (ih (fun y hy => hc y (by simp [hy])) _) (ScoreDbl.mul_le x c (hc c (by simp)))

theorem simpleProb_le_one (s : Setup P) (a r : Image) (g : Nat) : Dbl.le (simpleProb s a r g) (Dbl.ofPct 100) = true := by
  rw [simpleProb_product]
  unfold simplePercents
  exact LawfulDbl.trans _ _ _ (foldl_at_most _ (by
    intro c hc
    obtain ⟨t, _, rfl⟩ := List.mem_map.1 hc
    exact sim_le _ _ _) _) (pct_le_one (sim_le _ _ _))

/-- A letter for which the two kinds of numbers give the same order to the candidates left, and the same side of the half. -/
theorem computeImage_agree {s : Setup P} {s' : Setup Q} {n : Nat} {val val' : Simple → Nat} {a r : Image} (hs : AlikeTables s s' n)
    (ok : SetupOk s val n a r) (ok' : SetupOk s' val' n a r)
    (hperf : ∀ g h, Perfect s' a r g → Perfect s' a r h → s'.glyphs.getD g [] = s'.glyphs.getD h [])
    (hord : (∀ g, ¬ Perfect s' a r g) → ∀ g h, Left s' a r g → Left s' a r h →
      Dbl.le (fullProb s a r g) (fullProb s a r h) = Dbl.le (fullProb s' a r g) (fullProb s' a r h))
    (hhalf : (∀ g, ¬ Perfect s' a r g) → ∀ g h, Left s' a r g → Left s' a r h →
      Dbl.le (Dbl.mul (fullProb s a r g) (Dbl.ofPct 50)) (fullProb s a r h) =
        Dbl.le (Dbl.mul (fullProb s' a r g) (Dbl.ofPct 50)) (fullProb s' a r h))
    (htie : (∀ g, ¬ Perfect s' a r g) → ∀ g h, Left s' a r g → Left s' a r h →
      Dbl.le (fullProb s' a r g) (fullProb s' a r h) = true → Dbl.le (fullProb s' a r h) (fullProb s' a r g) = true →
      s'.glyphs.getD g [] = s'.glyphs.getD h [])
    (t : List (Nat × P)) (t' : List (Nat × Q)) :
    ∃ o o', computeImage s t a r = .ok o ∧ computeImage s' t' a r = .ok o' ∧ o.views = o'.views := by
  obtain ⟨U, e1, g1, T, o, hT, c1, _, _, h1⟩ := computeImage_ok s val n a r ok t
  obtain ⟨U', e1', g1', T', o', hT', c1', _, _, h1'⟩ := computeImage_ok s' val' n a r ok' t'
  refine ⟨o, o', c1, c1', ?_⟩
  have hU := universe_mem ok e1
  have hU' := universe_mem ok' e1'
  have eC : ∀ g, Close s a r g ↔ Close s' a r g := by
    intro g; unfold Close; rw [hs.first, hs.simple]
  have eS : ∀ g, simplePercents s a r g = simplePercents s' a r g := by
    intro g; unfold simplePercents; rw [hs.first, hs.simple]
  have e100 : ∀ g, Dbl.le (Dbl.ofPct 100) (simpleProb s a r g) = true ↔ Dbl.le (Dbl.ofPct 100) (simpleProb s' a r g) = true := by
    intro g; rw [simpleProb_perfect, simpleProb_perfect, eS]
  have hok' := ok'.complex
  have eK : ∀ g, Kept s a r g ↔ Kept s' a r g := by
    intro g
    unfold Kept
    rw [complexKeep_iff ok.complex, complexKeep_iff ok'.complex, hs.complex, hs.byWords, hs.exclusive]
  have hidU : ∀ p ∈ U, ∀ q ∈ U, s.ids.getD p.1 0 = s.ids.getD q.1 0 ↔ s'.ids.getD p.1 0 = s'.ids.getD q.1 0 :=
    fun p hp q hq => hs.ids _ _ (g1.2 p hp) (g1.2 q hq)
  have views : ∀ {R : Type} [MonoDbl R] (gl : List (List View)) (T : List (Nat × R)) (lim : R),
      viewsOf gl T lim = ((T.filter fun p => Dbl.le lim p.2).map fun p => gl.getD p.1 []).flatten :=
    fun gl T lim => viewsOf_eq gl T lim
  have some' : (∃ p ∈ U, Dbl.le (Dbl.ofPct 100) p.2 = true) ↔ ∃ p ∈ U', Dbl.le (Dbl.ofPct 100) p.2 = true := by
    constructor
    · rintro ⟨p, hp, h⟩
      obtain ⟨k1, k2⟩ := (hU p).1 hp
      exact ⟨(p.1, simpleProb s' a r p.1), (hU' _).2 ⟨(eC _).1 k1, rfl⟩, (e100 _).1 (k2 ▸ h)⟩
    · rintro ⟨p, hp, h⟩
      obtain ⟨k1, k2⟩ := (hU' p).1 hp
      exact ⟨(p.1, simpleProb s a r p.1), (hU _).2 ⟨(eC _).2 k1, rfl⟩, (e100 _).2 (k2 ▸ h)⟩
  have empty : s.complex = [] ∧ s.exclusive = [] ↔ s'.complex = [] ∧ s'.exclusive = [] := by rw [hs.complex, hs.exclusive]
  rcases h1 with ⟨hne, hb, hp, hv⟩ | ⟨hp, hb, hv⟩
  · rcases h1' with ⟨hne', hb', hp', hv'⟩ | ⟨hp', hb', hv'⟩
    · rw [hv, hv', views, views, hs.glyphs]
      congr 1
      have up : ∀ {R : Type} [MonoDbl R] (U : List (Nat × R)), ∀ p ∈ U, ∀ q ∈ U, Dbl.le p.2 q.2 = true →
          Dbl.le (Dbl.ofPct 100 : R) p.2 = true → Dbl.le (Dbl.ofPct 100 : R) q.2 = true :=
        fun U p _ q _ l h => LawfulDbl.trans _ _ _ h l
      have k := best_agree (fun g => s'.glyphs.getD g []) (simpleProb s' a r) (fun p => Dbl.le (Dbl.ofPct 100) p.2)
        (fun p => Dbl.le (Dbl.ofPct 100) p.2) (fun p => Dbl.le (Dbl.ofPct 100) p.2)
        (best_filter (fun p => Dbl.le (Dbl.ofPct 100) p.2) (up U) hb) (best_filter (fun p => Dbl.le (Dbl.ofPct 100) p.2) (up U') hb')
        (by
          intro q
          rw [List.mem_filter, List.mem_map, hU']
          constructor
          · rintro ⟨⟨k1, k2⟩, k3⟩
            refine ⟨(q.1, simpleProb s a r q.1), List.mem_filter.2 ⟨(hU _).2 ⟨(eC _).2 k1, rfl⟩, (e100 _).2 (k2 ▸ k3)⟩, ?_⟩
            exact Prod.ext rfl k2.symm
          · rintro ⟨p, hp, rfl⟩
            obtain ⟨hp, k3⟩ := List.mem_filter.1 hp
            obtain ⟨k1, k2⟩ := (hU p).1 hp
            exact ⟨⟨(eC _).1 k1, rfl⟩, (e100 _).1 (k2 ▸ k3)⟩)
        (fun p hp q hq => hidU p (List.mem_filter.1 hp).1 q (List.mem_filter.1 hq).1)
        (by
          intro p hp q hq _
          obtain ⟨hq, k3⟩ := List.mem_filter.1 hq
          obtain ⟨k1, k2⟩ := (hU q).1 hq
          exact LawfulDbl.trans _ _ _ (simpleProb_le_one s' a r p.1) ((e100 _).1 (k2 ▸ k3)))
        (by
          intro p hp
          obtain ⟨hp, k3⟩ := List.mem_filter.1 hp
          obtain ⟨k1, k2⟩ := (hU p).1 (hb.sub p hp)
          rw [k3]
          exact ((e100 _).1 (k2 ▸ k3)).symm)
        (by
          intro p hp q hq _ _
          rw [(List.mem_filter.1 hp).2, (List.mem_filter.1 hq).2])
        (by
          intro p hp q hq k1 k2 _ _
          obtain ⟨p1, p2⟩ := (hU' p).1 (List.mem_filter.1 hp).1
          obtain ⟨q1, q2⟩ := (hU' q).1 (List.mem_filter.1 hq).1
          rw [p2] at k1
          rw [q2] at k2
          exact hperf _ _ ⟨p1, (simpleProb_perfect s' a r _).1 k1⟩ ⟨q1, (simpleProb_perfect s' a r _).1 k2⟩)
      simpa only [List.filter_filter, Bool.and_self] using k
    · exfalso
      rcases hp' with hp' | hp'
      · exact hne (empty.2 hp')
      · obtain ⟨p, h1, h2⟩ := some'.1 hp
        rw [hp' p h1] at h2
        cases h2
  · rcases h1' with ⟨hne', hb', hp', hv'⟩ | ⟨hp', hb', hv'⟩
    · exfalso
      rcases hp with hp | hp
      · exact hne' (empty.1 hp)
      · obtain ⟨p, h1, h2⟩ := some'.2 hp'
        rw [hp p h1] at h2
        cases h2
    · have none' : ∀ g, ¬ Perfect s' a r g := by
        rcases hp' with hp' | hp'
        · exact absurd hp'.1 hs.some
        · rintro g ⟨k1, k2⟩
          have := hp' (g, simpleProb s' a r g) ((hU' _).2 ⟨k1, rfl⟩)
          rw [(simpleProb_perfect s' a r g).2 k2] at this
          cases this
      have hV := survivors_mem (s := s) hU
      have hV' := survivors_mem (s := s') hU'
      have hn := (survivors_good (s := s) (img := a) (img90 := r) g1).2
      have left : ∀ p ∈ survivors s a r U, Left s' a r p.1 ∧ p.2 = fullProb s a r p.1 := by
        intro p hp
        obtain ⟨k1, k2, k3⟩ := (hV p).1 hp
        exact ⟨⟨(eC _).1 k1, (eK _).1 k2⟩, k3⟩
      have left' : ∀ p ∈ survivors s' a r U', Left s' a r p.1 ∧ p.2 = fullProb s' a r p.1 := by
        intro p hp
        obtain ⟨k1, k2, k3⟩ := (hV' p).1 hp
        exact ⟨⟨k1, k2⟩, k3⟩
      have to : ∀ p ∈ survivors s a r U, (p.1, fullProb s' a r p.1) ∈ survivors s' a r U' := by
        intro p hp
        obtain ⟨k1, k2, k3⟩ := (hV p).1 hp
        exact (hV' _).2 ⟨(eC _).1 k1, (eK _).1 k2, rfl⟩
      have fro : ∀ p ∈ survivors s' a r U', (p.1, fullProb s a r p.1) ∈ survivors s a r U := by
        intro p hp
        obtain ⟨k1, k2, k3⟩ := (hV' p).1 hp
        exact (hV _).2 ⟨(eC _).2 k1, (eK _).2 k2, rfl⟩
      have hf : ∀ p ∈ survivors s a r U, ∀ q ∈ survivors s a r U, Dbl.le p.2 q.2 = true →
          Dbl.le (fullProb s' a r p.1) (fullProb s' a r q.1) = true := by
        intro p hp q hq l
        obtain ⟨p1, p2⟩ := left p hp
        obtain ⟨q1, q2⟩ := left q hq
        rw [p2, q2, hord none' _ _ p1 q1] at l
        exact l
      cases T with
      | nil =>
        have hT'0 : T' = [] := by
          cases T' with
          | nil => rfl
          | cons b T' =>
            obtain ⟨q, hq, _⟩ := hb.cover _ (fro b (hb'.sub b (by simp)))
            exact absurd hq (by simp)
        subst hT'0
        rw [hv, hv']
      | cons b T =>
        cases T' with
        | nil =>
          obtain ⟨q, hq, _⟩ := hb'.cover _ (to b (hb.sub b (by simp)))
          exact absurd hq (by simp)
        | cons b' T' =>
          have top : ∀ {R : Type} [MonoDbl R] {b : Nat × R} {T : List (Nat × R)},
              ((b :: T).Pairwise fun a b => Dbl.le b.2 a.2 = true) → ∀ p ∈ b :: T, Dbl.le p.2 b.2 = true := by
            intro R _ b T h p hp
            rcases List.mem_cons.1 hp with rfl | hp
            · exact le_refl_P _
            · exact (List.pairwise_cons.1 h).1 p hp
          have hbV := hb.sub b (by simp)
          have hbV' := hb'.sub b' (by simp)
          have l1 : Dbl.le (fullProb s' a r b.1) b'.2 = true := by
            obtain ⟨q, hq, _, h⟩ := hb'.cover _ (to b hbV)
            exact LawfulDbl.trans _ _ _ h (top hb'.sorted q hq)
          have l2 : Dbl.le b'.2 (fullProb s' a r b.1) = true := by
            obtain ⟨q, hq, _, h⟩ := hb.cover _ (fro b' hbV')
            have := hf _ (fro b' hbV') b hbV (LawfulDbl.trans _ _ _ h (top hb.sorted q hq))
            rwa [← (left' b' hbV').2] at this
          rw [hv, hv', hs.limit, hs.limit', hs.glyphs]
          simp only []
          rw [views, views]
          congr 1
          refine best_agree (fun g => s'.glyphs.getD g []) (fullProb s' a r) (fun p => Dbl.le (Dbl.mul b.2 (Dbl.ofPct 50)) p.2)
            (fun p => Dbl.le (Dbl.mul (fullProb s' a r b.1) (Dbl.ofPct 50)) p.2) (fun p => Dbl.le (Dbl.mul b'.2 (Dbl.ofPct 50)) p.2)
            hb hb' ?_ (fun p hp q hq => hs.ids _ _ (hn p hp) (hn q hq)) hf ?_ ?_ ?_
          · intro q
            rw [List.mem_map]
            constructor
            · intro hq
              exact ⟨_, fro q hq, Prod.ext rfl (left' q hq).2.symm⟩
            · rintro ⟨p, hp, rfl⟩
              exact to p hp
          · intro p hp
            obtain ⟨p1, p2⟩ := left p (hb.sub p hp)
            obtain ⟨b1, b2⟩ := left b hbV
            rw [p2, b2]
            exact hhalf none' _ _ b1 p1
          · intro p hp q hq h3 h4
            exact limit_same (MonoDbl.mul_mono _ _ _ l1) (MonoDbl.mul_mono _ _ _ l2) h3 h4
          · intro p hp q hq _ _ h3 h4
            obtain ⟨p1, p2⟩ := left' p hp
            obtain ⟨q1, q2⟩ := left' q hq
            rw [p2, q2] at h3 h4
            exact htie none' _ _ p1 q1 h3 h4

end

/-! ### `double` and exact fractions -/

theorem half_apart {N M : Nat} (h : Apart N (2 * M)) :
    N * 50 * (2 ^ 40 + 1) < M * 100 * 2 ^ 40 ∧ N ≤ 2 * M ∨ M * 100 * (2 ^ 40 + 1) < N * 50 * 2 ^ 40 ∧ 2 * M < N := by
  unfold Apart at h
  omega

/-- A letter on which no near tie decides has the same candidates with `double` and with exact fractions. -/
theorem computeImage_rounding {s : Setup Double} {s' : Setup Frac} {n : Nat} {val val' : Simple → Nat} {a r : Image}
    (hs : AlikeTables s s' n) (ok : SetupOk s val n a r) (ok' : SetupOk s' val' n a r)
    (hlen : 1 + s'.simple.length + s'.complex.length ≤ 100) (hc : Clear s' a r) (t : List (Nat × Double)) (t' : List (Nat × Frac)) :
    ∃ o o', computeImage s t a r = .ok o ∧ computeImage s' t' a r = .ok o' ∧ o.views = o'.views := by
  have ep : ∀ g, percents s a r g = percents s' a r g := by
    intro g; unfold percents simplePercents; rw [hs.first, hs.simple, hs.complex]
  have el : ∀ g, (percents s' a r g).length = 1 + s'.simple.length + s'.complex.length := by
    intro g
    unfold percents simplePercents
    rw [List.length_append, List.length_map, List.length_map, List.length_cons]
    omega
  have ne : ∀ g, percents s' a r g ≠ [] := by
    intro g h
    have := el g
    rw [h] at this
    simp at this
    omega
  -- the two numbers of a glyph
  have hd : ∀ g, Left s' a r g → Rounded 254 (fullProb s a r g).n (chance s' a r g) (100 ^ (1 + s'.simple.length + s'.complex.length)) ∧
      Big (1 + s'.simple.length + s'.complex.length) (fullProb s a r g).n := by
    intro g hg
    have := product_rounded (percents_in ok' hg) (ne g) (by rw [el]; omega)
    rw [fullProb_product, ep, ← el g]
    exact ⟨this.1.upto (by rw [el]; omega), this.2⟩
  have hq : ∀ g, fullProb s' a r g = ⟨chance s' a r g, 1 + s'.simple.length + s'.complex.length⟩ := by
    intro g
    rw [fullProb_product, product_frac (ne g), el]
    rfl
  generalize 1 + s'.simple.length + s'.complex.length = L at *
  have hp100 : 0 < 100 ^ L := Nat.pow_pos (by omega)
  have leQ : ∀ g h, Dbl.le (fullProb s' a r g) (fullProb s' a r h) = decide (chance s' a r g ≤ chance s' a r h) := by
    intro g h
    rw [hq, hq]
    show decide (_ * 100 ^ L ≤ _ * 100 ^ L) = _
    rw [decide_eq_decide]
    exact Nat.mul_le_mul_right_iff hp100
  have halfQ : ∀ g h, Dbl.le (Dbl.mul (fullProb s' a r g) (Dbl.ofPct 50)) (fullProb s' a r h) =
      decide (chance s' a r g ≤ 2 * chance s' a r h) := by
    intro g h
    rw [hq, hq]
    show decide (chance s' a r g * 50 * 100 ^ L ≤ chance s' a r h * 100 ^ (L + 1)) = _
    rw [decide_eq_decide, Nat.pow_succ, Nat.mul_comm (100 ^ L), ← Nat.mul_assoc, Nat.mul_le_mul_right_iff hp100]
    omega
  refine computeImage_agree hs ok ok' hc.perfect ?_ ?_ ?_ t t'
  · intro hn g h hg hh
    rw [leQ]
    rcases hc.order hn g h hg hh with ⟨e, _⟩ | hap
    · have e1 : chance s' a r g = chance s' a r h := by unfold chance; rw [e]
      rw [fullProb_product, fullProb_product, ep, ep, e, e1, decide_eq_true (Nat.le_refl _)]
      exact le_refl_P _
    · show decide ((fullProb s a r g).n ≤ (fullProb s a r h).n) = _
      rw [decide_eq_decide]
      have r1 := (hd g hg).1.upto (show 254 ≤ 256 by omega)
      have r2 := (hd h hh).1.upto (show 254 ≤ 256 by omega)
      rcases hap with k | k
      · have := rounded_lt r1 r2 k
        omega
      · have := rounded_lt r2 r1 k
        omega
  · intro hn g h hg hh
    rw [halfQ]
    show decide ((Double.mul (fullProb s a r g) (Double.ofPct 50)).n ≤ (fullProb s a r h).n) = _
    rw [decide_eq_decide]
    obtain ⟨r1, b1⟩ := hd g hg
    have r2 := ((hd h hh).1.upto (show 254 ≤ 256 by omega)).scale 100
    have m1 := r1.mul (ofPct_rounded (c := 50) (by omega) (by omega)) (b1.mul (ofPct_big (c := 50) (by omega)) (by omega)).1
    have m1 : Rounded 256 (Double.mul (fullProb s a r g) (Double.ofPct 50)).n (chance s' a r g * 50) (100 ^ L * 100) := m1
    rcases half_apart (hc.half hn g h hg hh) with ⟨k, k'⟩ | ⟨k, k'⟩
    · exact ⟨fun _ => k', fun _ => Nat.le_of_lt (rounded_lt m1 r2 k)⟩
    · exact ⟨fun h => absurd h (Nat.not_le_of_lt (rounded_lt r2 m1 k)), fun h => absurd h (Nat.not_le_of_lt k')⟩
  · intro hn g h hg hh l1 l2
    rw [leQ] at l1 l2
    simp only [decide_eq_true_eq] at l1 l2
    rcases hc.order hn g h hg hh with ⟨_, e⟩ | k | k
    · exact e
    · omega
    · omega

end Ppocr

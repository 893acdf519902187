import Verif.Model.Utf
import Verif.Spec.Utf

/-! # Lemmas for C39 -/

namespace Ppocr
open Spec

theorem rd_drop {src a b : List Nat} {pos : Nat} (h : src.drop pos = a ++ b) (i : Nat) (hi : i < a.length) :
    rd src (pos + i) = .ok (a[i]'hi) := by
  apply rd_of_getElem?
  rw [← List.getElem?_drop, h, List.getElem?_append_left hi, List.getElem?_eq_getElem hi]

/-- Disjoint bits: `|` is an addition. -/
theorem or_add (A b k i : Nat) (hA : A = k * 2 ^ i) (h : b < 2 ^ i) : A ||| b = A + b := by
  rw [hA, ← Nat.shiftLeft_eq, Nat.shiftLeft_add_eq_or_of_lt h]

theorem and_mask (a i : Nat) : a &&& (2 ^ i - 1) = a % 2 ^ i := Nat.and_two_pow_sub_one_eq_mod a i

theorem uni2 (u a : Nat) : ((u &&& 0x1F) <<< 6) ||| (a &&& 0x3F) = u % 32 * 64 + a % 64 := by
  rw [show u &&& 0x1F = u % 32 from and_mask u 5, show a &&& 0x3F = a % 64 from and_mask a 6,
    Nat.shiftLeft_eq]
  exact or_add _ _ (u % 32) 6 rfl (by omega)

theorem uni3 (u a b : Nat) : ((u &&& 0x0F) <<< 12) ||| ((a &&& 0x3F) <<< 6) ||| (b &&& 0x3F) =
    u % 16 * 4096 + a % 64 * 64 + b % 64 := by
  rw [show u &&& 0x0F = u % 16 from and_mask u 4, show a &&& 0x3F = a % 64 from and_mask a 6,
    show b &&& 0x3F = b % 64 from and_mask b 6, Nat.shiftLeft_eq, Nat.shiftLeft_eq,
    or_add (u % 16 * 2 ^ 12) (a % 64 * 2 ^ 6) (u % 16) 12 rfl (by omega)]
  exact or_add _ _ (u % 16 * 64 + a % 64) 6 (by omega) (by omega)

theorem uni4 (u a b c : Nat) : ((u &&& 0x07) <<< 18) ||| ((a &&& 0x3F) <<< 12) ||| ((b &&& 0x3F) <<< 6) |||
    (c &&& 0x3F) = u % 8 * 262144 + a % 64 * 4096 + b % 64 * 64 + c % 64 := by
  rw [show u &&& 0x07 = u % 8 from and_mask u 3, show a &&& 0x3F = a % 64 from and_mask a 6,
    show b &&& 0x3F = b % 64 from and_mask b 6, show c &&& 0x3F = c % 64 from and_mask c 6,
    Nat.shiftLeft_eq, Nat.shiftLeft_eq, Nat.shiftLeft_eq,
    or_add (u % 8 * 2 ^ 18) (a % 64 * 2 ^ 12) (u % 8) 18 rfl (by omega),
    or_add (u % 8 * 2 ^ 18 + a % 64 * 2 ^ 12) (b % 64 * 2 ^ 6) (u % 8 * 64 + a % 64) 12 (by omega) (by omega)]
  exact or_add _ _ (u % 8 * 4096 + a % 64 * 64 + b % 64) 6 (by omega) (by omega)

theorem pack2 (u a : Nat) (ha : a < 256) : (u <<< 8) ||| a = u * 256 + a := by
  rw [Nat.shiftLeft_eq]
  exact or_add _ _ u 8 rfl (by omega)

theorem pack3 (u a b : Nat) (ha : a < 256) (hb : b < 256) :
    (u <<< 16) ||| (a <<< 8) ||| b = (u * 256 + a) * 256 + b := by
  rw [Nat.shiftLeft_eq, Nat.shiftLeft_eq, or_add (u * 2 ^ 16) (a * 2 ^ 8) u 16 rfl (by omega),
    or_add _ b (u * 256 + a) 8 (by omega) (by omega)]
  omega

theorem pack4 (u a b c : Nat) (ha : a < 256) (hb : b < 256) (hc : c < 256) :
    (u <<< 24) ||| (a <<< 16) ||| (b <<< 8) ||| c = ((u * 256 + a) * 256 + b) * 256 + c := by
  rw [Nat.shiftLeft_eq, Nat.shiftLeft_eq, Nat.shiftLeft_eq,
    or_add (u * 2 ^ 24) (a * 2 ^ 16) u 24 rfl (by omega),
    or_add (u * 2 ^ 24 + a * 2 ^ 16) (b * 2 ^ 8) (u * 256 + a) 16 (by omega) (by omega),
    or_add _ c ((u * 256 + a) * 256 + b) 8 (by omega) (by omega)]
  omega

theorem enc_cases (c : Nat) : (c < 0x80 ∧ enc c = [c]) ∨
    (0x80 ≤ c ∧ c < 0x800 ∧ enc c = [0xC0 + c / 64, 0x80 + c % 64]) ∨
    (0x800 ≤ c ∧ c < 0x10000 ∧ enc c = [0xE0 + c / 4096, 0x80 + c / 64 % 64, 0x80 + c % 64]) ∨
    (0x10000 ≤ c ∧ enc c = [0xF0 + c / 262144, 0x80 + c / 4096 % 64, 0x80 + c / 64 % 64, 0x80 + c % 64]) := by
  unfold enc
  repeat' split
  · exact .inl ⟨by omega, rfl⟩
  · exact .inr (.inl ⟨by omega, by omega, rfl⟩)
  · exact .inr (.inr (.inl ⟨by omega, by omega, rfl⟩))
  · exact .inr (.inr (.inr ⟨by omega, rfl⟩))

theorem shr4 (u : Nat) : u >>> 4 = u / 16 := by rw [Nat.shiftRight_eq_div_pow]

/-- One step on an encoded character. -/
theorem unicodeNext_enc {src rest : List Nat} {pos c : Nat} (hc : Scalar c)
    (h : src.drop pos = enc c ++ rest) : unicodeNext src pos = .ok (c, pos + (enc c).length) := by
  have hlt : c < 0x110000 := by have := hc.2; omega
  unfold unicodeNext unicodeTail
  simp only [shr4]
  rcases enc_cases c with ⟨h1, e⟩ | ⟨h1, h2, e⟩ | ⟨h1, h2, e⟩ | ⟨h1, e⟩
  · rw [e] at h ⊢
    have r0 := rd_drop h 0 (by simp)
    simp only [Nat.add_zero, List.getElem_cons_zero, List.getElem_cons_succ] at r0
    rw [r0, Res.ok_bind,
      if_pos (by omega)]
    exact congrArg Res.ok (Prod.ext (by show (_ : Nat) = c; omega) (by show (_ : Nat) = pos + _; simp))
  · rw [e] at h ⊢
    have r0 := rd_drop h 0 (by simp)
    have r1 := rd_drop h 1 (by simp)
    simp only [Nat.add_zero, List.getElem_cons_zero, List.getElem_cons_succ] at r0 r1
    rw [r0, Res.ok_bind,
      if_neg (by omega),
      if_pos (by omega),
      r1, Res.ok_bind,
      uni2]
    exact congrArg Res.ok (Prod.ext (by show (_ : Nat) = c; omega) (by show (_ : Nat) = pos + _; simp))
  · rw [e] at h ⊢
    have r0 := rd_drop h 0 (by simp)
    have r1 := rd_drop h 1 (by simp)
    have r2 := rd_drop h 2 (by simp)
    simp only [Nat.add_zero, List.getElem_cons_zero, List.getElem_cons_succ] at r0 r1 r2
    rw [r0, Res.ok_bind,
      if_neg (by omega),
      if_neg (by omega),
      if_pos (by omega),
      r1, Res.ok_bind,
      r2, Res.ok_bind,
      uni3]
    exact congrArg Res.ok (Prod.ext (by show (_ : Nat) = c; omega) (by show (_ : Nat) = pos + _; simp))
  · rw [e] at h ⊢
    have r0 := rd_drop h 0 (by simp)
    have r1 := rd_drop h 1 (by simp)
    have r2 := rd_drop h 2 (by simp)
    have r3 := rd_drop h 3 (by simp)
    simp only [Nat.add_zero, List.getElem_cons_zero, List.getElem_cons_succ] at r0 r1 r2 r3
    rw [r0, Res.ok_bind,
      if_neg (by omega),
      if_neg (by omega),
      if_neg (by omega),
      if_pos (by omega),
      r1, Res.ok_bind,
      r2, Res.ok_bind,
      r3, Res.ok_bind,
      uni4]
    exact congrArg Res.ok (Prod.ext (by show (_ : Nat) = c; omega) (by show (_ : Nat) = pos + _; simp))

theorem utf8Next_enc {src rest : List Nat} {pos c : Nat} (hc : Scalar c)
    (h : src.drop pos = enc c ++ rest) : utf8Next src pos = .ok (packed c, pos + (enc c).length) := by
  have hlt : c < 0x110000 := by have := hc.2; omega
  unfold packed utf8Next utf8Tail
  simp only [shr4]
  rcases enc_cases c with ⟨h1, e⟩ | ⟨h1, h2, e⟩ | ⟨h1, h2, e⟩ | ⟨h1, e⟩
  · rw [e] at h ⊢
    have r0 := rd_drop h 0 (by simp)
    simp only [Nat.add_zero, List.getElem_cons_zero, List.getElem_cons_succ] at r0
    rw [r0, Res.ok_bind,
      if_pos (by omega)]
    exact congrArg Res.ok (Prod.ext (by simp [packBytes]) (by show (_ : Nat) = pos + _; simp))
  · rw [e] at h ⊢
    have r0 := rd_drop h 0 (by simp)
    have r1 := rd_drop h 1 (by simp)
    simp only [Nat.add_zero, List.getElem_cons_zero, List.getElem_cons_succ] at r0 r1
    rw [r0, Res.ok_bind,
      if_neg (by omega),
      if_pos (by omega),
      r1, Res.ok_bind,
      pack2 _ _ (by omega) ]
    exact congrArg Res.ok (Prod.ext (by simp [packBytes]) (by show (_ : Nat) = pos + _; simp))
  · rw [e] at h ⊢
    have r0 := rd_drop h 0 (by simp)
    have r1 := rd_drop h 1 (by simp)
    have r2 := rd_drop h 2 (by simp)
    simp only [Nat.add_zero, List.getElem_cons_zero, List.getElem_cons_succ] at r0 r1 r2
    rw [r0, Res.ok_bind,
      if_neg (by omega),
      if_neg (by omega),
      if_pos (by omega),
      r1, Res.ok_bind,
      r2, Res.ok_bind,
      pack3 _ _ _ (by omega) (by omega) ]
    exact congrArg Res.ok (Prod.ext (by simp [packBytes]) (by show (_ : Nat) = pos + _; simp))
  · rw [e] at h ⊢
    have r0 := rd_drop h 0 (by simp)
    have r1 := rd_drop h 1 (by simp)
    have r2 := rd_drop h 2 (by simp)
    have r3 := rd_drop h 3 (by simp)
    simp only [Nat.add_zero, List.getElem_cons_zero, List.getElem_cons_succ] at r0 r1 r2 r3
    rw [r0, Res.ok_bind,
      if_neg (by omega),
      if_neg (by omega),
      if_neg (by omega),
      if_pos (by omega),
      r1, Res.ok_bind,
      r2, Res.ok_bind,
      r3, Res.ok_bind,
      pack4 _ _ _ _ (by omega) (by omega) (by omega) ]
    exact congrArg Res.ok (Prod.ext (by simp [packBytes]) (by show (_ : Nat) = pos + _; simp))


theorem enc_ne_nil (c : Nat) : enc c ≠ [] := by
  unfold enc
  repeat' split
  all_goals simp

theorem enc_length_pos (c : Nat) : 0 < (enc c).length := List.length_pos_iff.2 (enc_ne_nil c)

/-- The bytes of an encoded character are bytes, and none is zero. -/
theorem enc_byte {c b : Nat} (hc : Scalar c) (hb : b ∈ enc c) : 0 < b ∧ b < 256 := by
  have hlt : c < 0x110000 := by have := hc.2; omega
  have h0 := hc.1
  unfold enc at hb
  split at hb
  · simp at hb; omega
  · split at hb
    · simp at hb; omega
    · split at hb
      · simp at hb; omega
      · simp at hb; omega

theorem packed_pos {c : Nat} (hc : Scalar c) : 0 < packed c := by
  have h0 := hc.1
  unfold packed enc
  repeat' split
  all_goals simp [packBytes]
  all_goals omega

theorem packed_lt {c : Nat} (hc : Scalar c) : packed c < W32 := by
  have hlt : c < 0x110000 := by have := hc.2; omega
  unfold packed enc W32
  repeat' split
  all_goals simp [packBytes]
  all_goals omega

/-- Distinct characters have distinct codes. -/
theorem packed_inj {c d : Nat} (hc : Scalar c) (hd : Scalar d) (h : packed c = packed d) : c = d := by
  have hlt : c < 0x110000 := by have := hc.2; omega
  have hlt' : d < 0x110000 := by have := hd.2; omega
  unfold packed enc at h
  split at h <;> split at h
  all_goals try split at h
  all_goals try split at h
  all_goals try split at h
  all_goals try split at h
  all_goals simp [packBytes] at h
  all_goals omega

theorem encAll_cons (c : Nat) (cs : List Nat) : encAll (c :: cs) = enc c ++ encAll cs := by
  simp [encAll]

theorem encAll_append (a b : List Nat) : encAll (a ++ b) = encAll a ++ encAll b := by
  simp [encAll]

theorem encAll_length (cs : List Nat) : cs.length ≤ (encAll cs).length := by
  induction cs with
  | nil => simp [encAll]
  | cons c cs ih =>
    rw [encAll_cons, List.length_append, List.length_cons]
    have := enc_length_pos c
    omega

theorem drop_append {src a b : List Nat} {pos : Nat} (h : src.drop pos = a ++ b) :
    src.drop (pos + a.length) = b := by
  rw [← List.drop_drop, h, List.drop_left]

/-- The loop over a terminated string, for a step `next` that yields `f c` on each character. -/
theorem utfCollect_enc (next : List Nat → Nat → Res (Nat × Nat)) (f : Nat → Nat)
    (hn : ∀ src rest pos c, Scalar c → src.drop pos = enc c ++ rest →
      next src pos = .ok (f c, pos + (enc c).length))
    (hz : ∀ src rest pos, src.drop pos = 0 :: rest → next src pos = .ok (0, pos + 1))
    (hf : ∀ c, Scalar c → f c ≠ 0) (src rest : List Nat) :
    ∀ (cs : List Nat) (fuel pos : Nat), (∀ c ∈ cs, Scalar c) → cs.length < fuel →
      src.drop pos = encAll cs ++ 0 :: rest →
      utfCollect next src fuel pos = .ok (cs.map f, pos + (encAll cs).length + 1)
  | [], fuel + 1, pos, _, _, hd => by
    unfold utfCollect
    rw [hz src rest pos (by simpa [encAll] using hd), Res.ok_bind, if_pos rfl]
    rfl
  | c :: cs, fuel + 1, pos, hs, hl, hd => by
    have hc := hs c (by simp)
    rw [encAll_cons, List.append_assoc] at hd
    unfold utfCollect
    rw [hn src _ pos c hc hd, Res.ok_bind, if_neg (hf c hc),
      utfCollect_enc next f hn hz hf src rest cs fuel _ (fun d h => hs d (by simp [h]))
        (by simp at hl; omega) (drop_append hd), Res.ok_bind]
    show Res.ok _ = Res.ok _
    rw [encAll_cons, List.length_append, List.map_cons]
    congr 2
    omega

theorem unicodeNext_zero {src rest : List Nat} {pos : Nat} (h : src.drop pos = 0 :: rest) :
    unicodeNext src pos = .ok (0, pos + 1) := by
  have h0 := rd_drop (a := [0]) (b := rest) h 0 (by simp)
  simp only [Nat.add_zero, List.getElem_cons_zero] at h0
  unfold unicodeNext
  rw [h0, Res.ok_bind]
  rfl

theorem utf8Next_zero {src rest : List Nat} {pos : Nat} (h : src.drop pos = 0 :: rest) :
    utf8Next src pos = .ok (0, pos + 1) := by
  have h0 := rd_drop (a := [0]) (b := rest) h 0 (by simp)
  simp only [Nat.add_zero, List.getElem_cons_zero] at h0
  unfold utf8Next
  rw [h0, Res.ok_bind]
  rfl

theorem unicode_codes (cs rest : List Nat) (hs : ∀ c ∈ cs, Scalar c) :
    utfCodes unicodeNext (encAll cs ++ 0 :: rest) = .ok (cs, (encAll cs).length + 1) := by
  have := utfCollect_enc unicodeNext id (fun _ _ _ _ hc h => unicodeNext_enc hc h)
    (fun _ _ _ h => unicodeNext_zero h) (fun c hc => by have := hc.1; simp; omega)
    (encAll cs ++ 0 :: rest) rest cs ((encAll cs ++ 0 :: rest).length + 1) 0 hs
    (by have := encAll_length cs; simp; omega) rfl
  simpa [utfCodes] using this

theorem utf8_codes (cs rest : List Nat) (hs : ∀ c ∈ cs, Scalar c) :
    utfCodes utf8Next (encAll cs ++ 0 :: rest) = .ok (cs.map packed, (encAll cs).length + 1) := by
  have := utfCollect_enc utf8Next packed (fun _ _ _ _ hc h => utf8Next_enc hc h)
    (fun _ _ _ h => utf8Next_zero h) (fun c hc => by have := packed_pos hc; omega)
    (encAll cs ++ 0 :: rest) rest cs ((encAll cs ++ 0 :: rest).length + 1) 0 hs
    (by have := encAll_length cs; simp; omega) rfl
  simpa [utfCodes] using this

end Ppocr

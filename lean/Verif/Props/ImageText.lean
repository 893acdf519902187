import Verif.Proofs.ImageText
import Verif.Proofs.Box

/-! # C81, C82: images and coordinates as text -/

namespace Ppocr.Props
open Ppocr Spec

/-- **C81.** A drawing that fills the bounds becomes the image it shows: character `y * width + x` is the pixel in
column `x`, row `y`. -/
theorem C81_drawn (b : Bounds) (s : List Pixel) (hw : b.w < W32) (hh : b.h < W32) (hs : b.w * b.h < W32)
    (hd : Drawing b s) :
    ∃ i, imageFromString b (s ++ [0]) = .ok i ∧ i.WF ∧ i.bounds = b ∧
      ∀ x y, x < b.w → y < b.h → pix i x y = s[y * b.w + x]? := by
  have ha : b.area = b.w * b.h := umul_eq hs
  have hne : s ≠ [] := by
    rintro rfl
    rcases hd.last with h | h <;> cases h
  have hpos : 0 < s.length := List.length_pos_iff.2 hne
  have hlen := hd.size
  have h1 : (s ++ [0])[b.area]? = some 0 := by
    rw [ha, ← hlen, List.getElem?_append_right (Nat.le_refl _)]
    simp
  have h2 : (s ++ [0])[b.area - 1]? = s.getLast? := by
    rw [ha, ← hlen, List.getElem?_append_left (by omega), List.getLast?_eq_getElem?]
  refine ⟨⟨b, (s ++ [0]).take b.area⟩, (imageFromString_iff b _ _ (by omega)).2 ⟨h1, ?_, rfl⟩, ?_, rfl, ?_⟩
  · rw [h2]; exact hd.last
  · rw [ha, ← hlen, List.take_left]
    exact ⟨hlen, hs, hw, hh⟩
  · intro x y hx hy
    simp only [pix]
    rw [if_pos ⟨hx, hy⟩, ha, ← hlen, List.take_left]

/-- **C81, every string.** For a C string and an area that is not zero and fits in 32 bits: the drawings that fill the
bounds are taken, any other string at least as long aborts, and for a shorter one the memory behind it is read. -/
theorem C81_exact (b : Bounds) (s : List Pixel) (hs : b.w * b.h < W32) (h0 : 0 < b.w * b.h) (hc : CString s) :
    ((∃ i, imageFromString b (s ++ [0]) = .ok i) ↔ Drawing b s) ∧
      (imageFromString b (s ++ [0]) = .abort ↔ b.w * b.h ≤ s.length ∧ ¬ Drawing b s) ∧
      (imageFromString b (s ++ [0]) = .ub ↔ s.length < b.w * b.h) := by
  have ha : b.area = b.w * b.h := umul_eq hs
  rcases Nat.lt_trichotomy s.length (b.w * b.h) with hl | hl | hl
  · have e := imageFromString_short b (s ++ [0]) (by rw [ha]; simp; omega)
    have hnd : ¬ Drawing b s := fun h => by have := h.size; omega
    rw [e]
    refine ⟨⟨fun ⟨_, h⟩ => by (cases h), fun h => absurd h hnd⟩, ⟨fun h => by (cases h), fun h => by omega⟩, ⟨fun _ => hl, fun _ => rfl⟩⟩
  · have h1 : (s ++ [0])[b.area]? = some 0 := by
      rw [ha, ← hl, List.getElem?_append_right (Nat.le_refl _)]
      simp
    have h2 : (s ++ [0])[b.area - 1]? = s.getLast? := by
      rw [ha, ← hl, List.getElem?_append_left (by omega), List.getLast?_eq_getElem?]
    by_cases hd : Drawing b s
    · have e : imageFromString b (s ++ [0]) = .ok ⟨b, (s ++ [0]).take b.area⟩ :=
        (imageFromString_iff b _ _ (by omega)).2 ⟨h1, by rw [h2]; exact hd.last, rfl⟩
      rw [e]
      exact ⟨⟨fun _ => hd, fun _ => ⟨_, rfl⟩⟩, ⟨fun h => by (cases h), fun h => absurd hd h.2⟩, ⟨fun h => by (cases h), fun h => by omega⟩⟩
    · have hne : s ≠ [] := by
        rintro rfl
        rw [← hl] at h0
        cases h0
      have hlast : s.getLast? = some (s.getLast hne) := List.getLast?_eq_some_getLast hne
      have e : imageFromString b (s ++ [0]) = .abort := by
        refine imageFromString_last b _ (c := s.getLast hne) (by omega) h1 (by rw [h2, hlast]) ?_ ?_
        · intro hh
          exact hd ⟨hl, .inl (by rw [hlast, hh])⟩
        · intro hh
          exact hd ⟨hl, .inr (by rw [hlast, hh])⟩
      rw [e]
      exact ⟨⟨fun ⟨_, h⟩ => by (cases h), fun h => absurd h hd⟩, ⟨fun _ => ⟨by omega, hd⟩, fun _ => rfl⟩, ⟨fun h => by (cases h), fun h => by omega⟩⟩
  · have hb : (s ++ [0])[b.area]? = some s[b.w * b.h] := by
      rw [ha, List.getElem?_append_left hl, List.getElem?_eq_getElem hl]
    have e := imageFromString_long b (s ++ [0]) hb (hc _ (List.getElem_mem hl))
    have hnd : ¬ Drawing b s := fun h => by have := h.size; omega
    rw [e]
    exact ⟨⟨fun ⟨_, h⟩ => by (cases h), fun h => absurd h hnd⟩, ⟨fun _ => ⟨by omega, hnd⟩, fun _ => rfl⟩, ⟨fun h => by (cases h), fun h => by omega⟩⟩

/-- **C81, no pixels.** With a width or height of zero no string is taken: the empty string makes the function read
the byte at offset `2^32 - 1`, any other one aborts. -/
theorem C81_empty (b : Bounds) (s : List Pixel) (h0 : b.w * b.h = 0) (hl : s.length + 1 < W32) (hc : CString s) :
    imageFromString b (s ++ [0]) = if s = [] then .ub else .abort := by
  have ha : b.area = 0 := by unfold Bounds.area umul; rw [h0]; rfl
  cases s with
  | nil => exact imageFromString_empty b _ ha (by simpa using hl) rfl
  | cons c t =>
    rw [if_neg (by simp)]
    exact imageFromString_long b _ (c := c) (by rw [ha]; rfl) (hc c (by simp))

/-- **C81, area of more than 32 bits.** The product wraps: whatever image comes back has fewer cells than its bounds
claim. -/
theorem C81_wrapped (b : Bounds) (mem : List Pixel) (hb : W32 ≤ b.w * b.h) (h0 : 0 < b.area) (i : Image)
    (h : imageFromString b mem = .ok i) : i.bounds = b ∧ i.data.length < b.w * b.h := by
  obtain ⟨_, _, rfl⟩ := (imageFromString_iff b mem i h0).1 h
  refine ⟨rfl, ?_⟩
  have := area_lt b
  simp only [List.length_take]
  omega

/-- **C81, printed.** A drawing of `x` and `-` printed by `operator<<` shows its characters row by row in a frame of
colons. -/
theorem C81_printed (b : Bounds) (s : List Pixel) (hw : b.w + 3 < W32) (hh : b.h < W32) (hs : b.w * b.h < W32)
    (hne : s ≠ []) (hd : s.length = b.w * b.h) (hp : ∀ c ∈ s, c = chDash ∨ c = chX) :
    (do imageShow (← imageFromString b (s ++ [0]))) =
      .ok (rule b.w ++ ((List.range b.h).flatMap fun y =>
        58 :: (((s.drop (y * b.w)).take b.w).map UInt8.toNat ++ [58, 10])) ++ rule b.w) := by
  have hlast := hp _ (List.getLast_mem hne)
  have hg : s.getLast? = some (s.getLast hne) := List.getLast?_eq_some_getLast hne
  obtain ⟨i, e, wf, hb, _⟩ := C81_drawn b s (by omega) hh hs
    ⟨hd, by rcases hlast with h | h <;> rw [hg, h] <;> simp⟩
  have ha : b.area = b.w * b.h := umul_eq hs
  have hpos : 0 < s.length := List.length_pos_iff.2 hne
  have he := ((imageFromString_iff b _ _ (by omega)).1 e).2.2
  rw [ha, ← hd, List.take_left] at he
  rw [e, Res.ok_bind, he]
  unfold imageShow
  rw [showRows_ok _ 0 (by simp only [hd, Nat.mul_comm]; omega), Res.ok_bind, padded_rule hw, Res.pure_eq]
  simp only [Nat.zero_add]

example : (do imageShow (← imageFromString ⟨3, 2⟩ ([120, 45, 45, 45, 120, 120] ++ [0]))) =
    .ok (rule 3 ++ [58, 120, 45, 45, 58, 10, 58, 45, 120, 120, 58, 10] ++ rule 3) :=
  C81_printed ⟨3, 2⟩ _ (by decide) (by decide) (by decide) (by decide) (by decide) (by decide)

example : ∃ i, imageFromString ⟨3, 2⟩ ([120, 45, 45, 45, 120, 120] ++ [0]) = .ok i ∧ pix i 2 1 = some 120 := by
  obtain ⟨i, h, _, _, hp⟩ := C81_drawn ⟨3, 2⟩ [120, 45, 45, 45, 120, 120] (by decide) (by decide) (by decide) ⟨rfl, .inr rfl⟩
  exact ⟨i, h, by rw [hp 2 1 (by decide) (by decide)]; rfl⟩

example : imageFromString ⟨3, 2⟩ ([120, 45, 45, 45, 120] ++ [0]) = .ub :=
  (C81_exact ⟨3, 2⟩ [120, 45, 45, 45, 120] (by decide) (by decide) (by unfold CString; decide)).2.2.2 (by decide)

example : imageFromString ⟨0, 7⟩ ([] ++ [0]) = .ub :=
  C81_empty ⟨0, 7⟩ [] rfl (by decide) (by simp [CString])

/-- Memory of `n` letters and a terminator. -/
theorem letters_mem (n : Nat) (h : 0 < n) : (List.replicate n chX ++ [0])[n]? = some 0 ∧
    (List.replicate n chX ++ [0])[n - 1]? = some chX := by
  constructor
  · rw [List.getElem?_append_right (by simp)]
    simp
  · rw [List.getElem?_append_left (by simp; omega), List.getElem?_replicate, if_pos (by omega)]

example : ∃ i, imageFromString ⟨65536, 65537⟩ (List.replicate (Bounds.area ⟨65536, 65537⟩) chX ++ [0]) = .ok i ∧
    i.data.length < 65536 * 65537 := by
  have h0 : 0 < (Bounds.area ⟨65536, 65537⟩) := by decide
  obtain ⟨h1, h2⟩ := letters_mem _ h0
  have e := (imageFromString_iff ⟨65536, 65537⟩ _ _ h0).2 ⟨h1, .inr h2, rfl⟩
  exact ⟨_, e, (C81_wrapped ⟨65536, 65537⟩ _ (by decide) h0 _ e).2⟩

/-- **C82.** `operator>>` of `Index` and of `Bounds` take the two numbers a text begins with; without two numbers, or
on a stream that has already failed, they leave the variable alone and the stream failed. -/
theorem C82_read : ReadsPair Idx.mk idxRead ∧ ReadsPair Bounds.mk boundsRead :=
  ⟨readsPair Idx.mk, readsPair Bounds.mk⟩

/-- **C82, round trip.** What `operator<<` writes is read back, whatever follows, as long as it is no digit. -/
theorem C82_round_trip (x y : Nat) (hx : x < 2 ^ 32) (hy : y < 2 ^ 32) (r : List Nat)
    (hr : ∀ c u, r = c :: u → ¬ Digit c) (oi : Idx) (ob : Bounds) :
    (idxRead (IS.of (idxWrite ⟨x, y⟩ ++ r)) oi).1 = ⟨x, y⟩ ∧ (idxRead (IS.of (idxWrite ⟨x, y⟩ ++ r)) oi).2.rest = r ∧
    (boundsRead (IS.of (boundsWrite ⟨x, y⟩ ++ r)) ob).1 = ⟨x, y⟩ ∧
      (boundsRead (IS.of (boundsWrite ⟨x, y⟩ ++ r)) ob).2.rest = r := by
  have h := twoNums_show hx hy hr
  obtain ⟨a1, _, a3⟩ := C82_read.1.taken _ _ _ _ oi h
  obtain ⟨b1, _, b3⟩ := C82_read.2.taken _ _ _ _ ob h
  exact ⟨a1, a3, b1, b3⟩

/-- **C82, written numbers differ.** Two coordinates are written alike only if they are equal. -/
theorem C82_inj (x y u v : Nat) (hx : x < 2 ^ 32) (hy : y < 2 ^ 32) (hu : u < 2 ^ 32) (hv : v < 2 ^ 32)
    (h : idxWrite ⟨x, y⟩ = idxWrite ⟨u, v⟩) : x = u ∧ y = v := by
  have h1 := (C82_round_trip x y hx hy [] (by simp) ⟨0, 0⟩ ⟨0, 0⟩).1
  have h2 := (C82_round_trip u v hu hv [] (by simp) ⟨0, 0⟩ ⟨0, 0⟩).1
  rw [h, h2, Idx.mk.injEq] at h1
  exact ⟨h1.1.symm, h1.2.symm⟩

example : (boundsRead (IS.of [32, 49, 50, 10, 55, 120]) ⟨1, 1⟩).1 = ⟨12, 7⟩ ∧
    (boundsRead (IS.of [49, 50, 32, 120]) ⟨1, 1⟩).1 = ⟨1, 1⟩ ∧
    (idxRead (IS.of [45, 49, 32, 52]) ⟨1, 1⟩).1 = ⟨4294967295, 4⟩ := by decide

example : (idxRead (IS.of (idxWrite ⟨4294967295, 0⟩ ++ [59])) ⟨5, 5⟩).1 = ⟨4294967295, 0⟩ :=
  (C82_round_trip 4294967295 0 (by decide) (by decide) [59] (by intro c u h; rw [List.cons.injEq] at h; rw [← h.1]; unfold Digit; omega) _ ⟨0, 0⟩).1

end Ppocr.Props

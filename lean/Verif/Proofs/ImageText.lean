import Verif.Spec.ImageText
import Verif.Proofs.Command
import Verif.Proofs.WordLines

/-! # Helper lemmas: images and coordinates as text -/

namespace Ppocr
open Spec

theorem area_lt (b : Bounds) : b.area < W32 := Nat.mod_lt _ (by decide)

/-- `image_from_string` on any memory. -/
theorem imageFromString_iff (b : Bounds) (mem : List Pixel) (i : Image) (h0 : 0 < b.area) :
    imageFromString b mem = .ok i ↔
      mem[b.area]? = some 0 ∧ (mem[b.area - 1]? = some chDash ∨ mem[b.area - 1]? = some chX) ∧
      i = ⟨b, mem.take b.area⟩ := by
  have ha := area_lt b
  unfold imageFromString
  rw [usub_eq ha h0]
  generalize b.area = a at *
  rw [Res.bind_eq_ok]
  constructor
  · rintro ⟨e, he, h⟩
    rw [rd_eq_ok] at he
    by_cases hz : e = 0
    · rw [if_pos hz, Res.bind_eq_ok] at h
      obtain ⟨l, hl, h⟩ := h
      rw [rd_eq_ok] at hl
      rw [Res.bind_eq_ok] at h
      obtain ⟨u, hu, h⟩ := h
      have hlen : a < mem.length := by
        rcases Nat.lt_or_ge a mem.length with hh | hh
        · exact hh
        · rw [List.getElem?_eq_none hh] at he; cases he
      rw [copyTo_ok mem a 0 ⟨a, []⟩ (by omega) (by simp), Res.ok_bind] at h
      simp only [Out.toImage, List.nil_append, List.drop_zero, List.length_take] at h
      rw [if_pos (by omega)] at h
      refine ⟨by rw [he, hz], ?_, (Res.ok.inj h).symm⟩
      rw [hl]
      unfold assert at hu
      split at hu
      · rename_i hb
        simpa using hb
      · cases hu
    · rw [if_neg hz] at h; cases h
  · rintro ⟨he, hl, rfl⟩
    refine ⟨0, rd_of_getElem? he, ?_⟩
    have hlen : a < mem.length := by
      rcases Nat.lt_or_ge a mem.length with hh | hh
      · exact hh
      · rw [List.getElem?_eq_none hh] at he; cases he
    rw [if_pos rfl]
    have hc := copyTo_ok mem a 0 ⟨a, []⟩ (by omega) (by simp)
    have ht : Out.toImage ⟨a, mem.take a⟩ b = .ok ⟨b, mem.take a⟩ := by
      unfold Out.toImage
      simp only [List.length_take]
      rw [if_pos (by omega)]
    rcases hl with hl | hl
    · rw [rd_of_getElem? hl, Res.ok_bind]
      rw [show (chDash == chDash || chDash == chX) = true from rfl, assert_true, Res.ok_bind, hc, Res.ok_bind]
      simpa using ht
    · rw [rd_of_getElem? hl, Res.ok_bind]
      rw [show (chX == chDash || chX == chX) = true from rfl, assert_true, Res.ok_bind, hc, Res.ok_bind]
      simpa using ht

theorem imageFromString_long (b : Bounds) (mem : List Pixel) {c : Pixel} (h : mem[b.area]? = some c) (hc : c ≠ 0) :
    imageFromString b mem = .abort := by
  unfold imageFromString
  rw [rd_of_getElem? h, Res.ok_bind, if_neg hc]

theorem imageFromString_short (b : Bounds) (mem : List Pixel) (h : mem.length ≤ b.area) :
    imageFromString b mem = .ub := by
  unfold imageFromString
  rw [rd_of_ge h, Res.ub_bind]

theorem imageFromString_last (b : Bounds) (mem : List Pixel) {c : Pixel} (h0 : 0 < b.area) (h : mem[b.area]? = some 0)
    (hl : mem[b.area - 1]? = some c) (h1 : c ≠ chDash) (h2 : c ≠ chX) : imageFromString b mem = .abort := by
  have ha := area_lt b
  unfold imageFromString
  rw [rd_of_getElem? h, Res.ok_bind, if_pos rfl, usub_eq ha h0, rd_of_getElem? hl, Res.ok_bind,
    show (c == chDash || c == chX) = false by simp [h1, h2], assert_false, Res.abort_bind]

theorem imageFromString_empty (b : Bounds) (mem : List Pixel) (h0 : b.area = 0) (hm : mem.length < W32)
    (h : mem[0]? = some 0) : imageFromString b mem = .ub := by
  unfold imageFromString
  rw [h0, rd_of_getElem? h, Res.ok_bind, if_pos rfl, show usub 0 1 = W32 - 1 from rfl,
    rd_of_ge (by omega), Res.ub_bind]

theorem live_of (t : List Nat) : Live (IS.of t) := ⟨rfl, rfl, fun h => by cases h⟩

theorem uint_dead {s : IS} (h : s.good = false) (m old : Nat) : (s.uint m old).2.fail = true := by
  unfold IS.uint IS.sentry
  simp [h]

/-- The common shape of the two readers of `coordinate.cpp`. -/
theorem readsPair {α : Type} (mk : Nat → Nat → α) :
    ReadsPair mk fun s old =>
      (if ((s.uint (W32 - 1) 0).2.uint (W32 - 1) 0).2.fail = true then old
        else mk (s.uint (W32 - 1) 0).1 ((s.uint (W32 - 1) 0).2.uint (W32 - 1) 0).1,
      ((s.uint (W32 - 1) 0).2.uint (W32 - 1) 0).2) where
  taken := by
    rintro t x y r old ⟨m, h1, h2⟩
    obtain ⟨f1, v1, r1⟩ := (uint_iff (live_of t) 0 x m).1 h1
    have l1 := uint_live (live_of t) 0 f1
    rw [← r1] at h2
    obtain ⟨f2, v2, r2⟩ := (uint_iff l1 0 y r).1 h2
    refine ⟨?_, f2, r2⟩
    simp only [f2, v1, v2]
    rfl
  kept := by
    intro t old hn
    have hf : (((IS.of t).uint (W32 - 1) 0).2.uint (W32 - 1) 0).2.fail = true := by
      cases hf : (((IS.of t).uint (W32 - 1) 0).2.uint (W32 - 1) 0).2.fail with
      | true => rfl
      | false =>
        have f1 := uint_fail_of hf
        have l1 := uint_live (live_of t) 0 f1
        exact absurd ⟨_, _, _, _, (uint_iff (live_of t) 0 _ _).2 ⟨f1, rfl, rfl⟩, (uint_iff l1 0 _ _).2 ⟨hf, rfl, rfl⟩⟩ hn
    exact ⟨by simp only [hf, if_true], hf⟩
  dead := by
    intro s old h
    have hf : ((s.uint (W32 - 1) 0).2.uint (W32 - 1) 0).2.fail = true := uint_fail (uint_dead h _ _) _ _
    exact ⟨by simp only [hf, if_true], hf⟩

theorem num_show {n : Nat} (hn : n < 2 ^ 32) {p r : List Nat} (hp : ∀ c ∈ p, Blank c) (hr : ∀ c u, r = c :: u → ¬ Digit c) :
    Num (p ++ (showNat n ++ r)) n r :=
  ⟨p, [], showNat n, rfl, hp, .inl rfl, showNat_ne n, fun c hc => digit_iff.1 (showNat_dec n c hc), hr,
    by rw [← decVal_numeral, showNat_val]; exact hn, by rw [if_neg (by simp), ← decVal_numeral, showNat_val]⟩

theorem twoNums_show {x y : Nat} (hx : x < 2 ^ 32) (hy : y < 2 ^ 32) {r : List Nat} (hr : ∀ c u, r = c :: u → ¬ Digit c) :
    TwoNums (showNat x ++ 32 :: showNat y ++ r) x y r := by
  refine ⟨32 :: (showNat y ++ r), ?_, ?_⟩
  · have := num_show (n := x) hx (p := []) (r := 32 :: (showNat y ++ r)) (by simp) (by
      intro c u h
      rw [List.cons.injEq] at h
      rw [← h.1]
      unfold Digit
      omega)
    simpa using this
  · have := num_show (n := y) hy (p := [32]) (r := r) (by simp [Blank]) hr
    simpa using this

end Ppocr

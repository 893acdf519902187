import Verif.Props.BoxTool

/-! # C80: the threshold that `box` shows before it refuses it -/

namespace Ppocr.Props
open Ppocr Spec

/-- A number with something behind it. -/
theorem strtoul_cut {v : List Nat} {k : Int} (h : Amount v k) (x : Nat) (r : List Nat) (hx : ¬ Digit x) :
    (strtoul (v ++ x :: r)).rest = x :: r ∧ (strtoul (v ++ x :: r)).value % W32 = (k % 2 ^ 32).toNat := by
  obtain ⟨p, sgn, d, n, rfl, hp, ⟨hd, hdd, hn⟩, hlt, hs⟩ := h
  have hdd' : ∀ c ∈ d, isDec c = true := fun c hc => digit_iff.2 (hdd c hc)
  have hp' : ∀ c ∈ p, isSpace c = true := fun c hc => isBlank_iff.2 (hp c hc)
  have hx' : ¬ isDec x = true := fun e => hx (digit_iff.1 e)
  obtain ⟨c, d', rfl⟩ := List.exists_cons_of_ne_nil hd
  have hc := hdd c (by simp)
  unfold Digit at hc
  have htw : (c :: d' ++ x :: r).takeWhile isDec = c :: d' := by
    rw [List.takeWhile_append_of_pos hdd', List.takeWhile_cons, if_neg hx', List.append_nil]
  have hdw : (c :: d' ++ x :: r).dropWhile isDec = x :: r := by
    rw [List.dropWhile_append_of_pos hdd', List.dropWhile_cons, if_neg hx']
  have hskip : (p ++ (sgn ++ c :: d') ++ x :: r).dropWhile isSpace = sgn ++ (c :: d' ++ x :: r) := by
    rw [List.append_assoc, List.append_assoc, List.dropWhile_append_of_pos hp']
    rcases hs with ⟨rfl, _⟩ | ⟨rfl, _⟩ | ⟨rfl, _⟩ <;> simp only [List.nil_append, List.cons_append, List.dropWhile_cons]
    · rw [if_neg]
      rw [isBlank_iff]
      unfold Blank
      omega
    · rw [if_neg (by decide)]
    · rw [if_neg (by decide)]
  have hval : decVal (c :: d') = n := by rw [decVal_numeral, hn]
  have hsg : parseSign (sgn ++ (c :: d' ++ x :: r)) = (decide (sgn = [45]), c :: d' ++ x :: r) := by
    rcases hs with ⟨rfl, _⟩ | ⟨rfl, _⟩ | ⟨rfl, _⟩
    · simp only [List.nil_append, List.cons_append, parseSign]
      rw [if_neg (by omega), if_neg (by omega)]
      rfl
    · rfl
    · rfl
  have hst : strtoul (p ++ (sgn ++ c :: d') ++ x :: r) = ⟨if sgn = [45] then (2 ^ 64 - n) % 2 ^ 64 else n, x :: r, false⟩ := by
    unfold strtoul
    simp only [hskip, hsg, htw, hdw, hval]
    rw [if_neg (by simp), if_neg (by omega)]
    simp
  rw [hst]
  refine ⟨rfl, ?_⟩
  dsimp only
  unfold W32
  rcases hs with ⟨rfl, rfl⟩ | ⟨rfl, rfl⟩ | ⟨rfl, rfl⟩
  · rw [if_neg (by simp)]; omega
  · rw [if_neg (by decide)]; omega
  · rw [if_pos rfl]; omega

/-- **C80**: a number with anything but a digit behind it is refused, whatever follows, but shown as the threshold. -/
theorem C80_refused_value (D : Disk) (v : List Nat) (k : Int) (hk : Amount v k) (x : Nat) (r : List Nat) (hx : ¬ Digit x)
    (ns : List (List Nat)) :
    boxMain D (bytes "-l" :: (v ++ x :: r) :: ns) = ⟨bytes " ## luminance: " ++ showNat (k % 2 ^ 32).toNat ++ [10], .ok 2⟩ := by
  obtain ⟨h1, h2⟩ := strtoul_cut hk x r hx
  rw [dash_l, boxMain_option, if_pos (.inr (.inl (by rw [h1]; simp))), h2]

example : boxMain darkness [bytes "-l", bytes "100%", bytes "i"] = ⟨bytes " ## luminance: 100\n", .ok 2⟩ ∧
    boxMain darkness [bytes "-l", bytes " -1x", bytes "i"] = ⟨bytes " ## luminance: 4294967295\n", .ok 2⟩ := by
  decide +kernel

end Ppocr.Props

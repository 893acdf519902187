import Verif.Spec.Learn6
import Verif.Proofs.Spaced
import Verif.Proofs.Learn

/-! # Sure letters in `extract_text6` -/

namespace Ppocr
open Spec

theorem isStop_first {l : List (List Nat)} (h : l ≠ []) : isStop l = stopText (firstOf l) := by
  match l, h with
  | [] :: _, _ => rfl
  | [c] :: _, _ => simp [isStop, stopText, firstOf]
  | (_ :: _ :: _) :: _, _ => simp [isStop, stopText, firstOf]

/-- Letters whose candidates are all the same are printed with them. -/
theorem saying_sure {ws : List (List Nat)} : ∀ (n : Nat) (L : List (List (List Nat))), L.length ≤ n → (∀ l ∈ L, Sure l) →
    Uncut ws (L.map firstOf) → saying ws L = L.flatMap firstOf
  | _, [], _, _, _ => by rw [saying]; rfl
  | 0, _ :: _, h, _, _ => by simp at h
  | n + 1, l :: L, h, hs, hu => by
    have hl := hs l (by simp)
    rw [saying]
    split
    · rw [saying_sure n L (by simpa using h) (fun x hx => hs x (by simp [hx]))
        (Uncut.sub hu (by simpa using (List.suffix_cons (firstOf l) (L.map firstOf)).isInfix))]
      rw [List.flatMap_cons, sepText, if_neg hl.1]
    · rename_i hst
      have hcat : (l :: L).takeWhile (!isStop ·) ++ (l :: L).dropWhile (!isStop ·) = l :: L := List.takeWhile_append_dropWhile
      have hd : ((l :: L).dropWhile (!isStop ·)).length ≤ n := by
        rw [List.dropWhile_cons_of_pos (by simpa using hst)]
        have := (List.dropWhile_sublist (l := L) (!isStop ·)).length_le
        simp only [List.length_cons] at h
        omega
      have h1 : (l :: L).takeWhile (!isStop ·) <:+: l :: L := (List.takeWhile_prefix _).isInfix
      have h2 : (l :: L).dropWhile (!isStop ·) <:+: l :: L := (List.dropWhile_suffix _).isInfix
      rw [runText_sure (fun x hx => hs x (h1.subset hx)) (Uncut.sub hu (h1.map _)),
        saying_sure n _ hd (fun x hx => hs x (h2.subset hx)) (Uncut.sub hu (h2.map _)), ← List.flatMap_append, hcat]

end Ppocr

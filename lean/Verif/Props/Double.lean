import Verif.Proofs.Double8
import Verif.Props.Letter8

/-! # C94: rounding -/

namespace Ppocr.Props
open Ppocr Spec

/-- A feature that is the same has the similarity 100, one that is near but not the same less. -/
theorem C94_likeness (k x y : Nat) (hk : 0 < k) (hx : x ≤ k) (hy : y ≤ k) : likeness k x y ≤ 100 ∧ (likeness k x y = 100 ↔ x = y) := by
  unfold likeness
  have h : ∀ m, m ≤ k → m * 100 / k ≤ 100 ∧ (m * 100 / k = 100 ↔ m = k) := by
    intro m hm
    refine ⟨Nat.div_le_of_le_mul (Nat.mul_le_mul_right _ hm), ?_⟩
    constructor
    · intro e
      have := Nat.div_mul_le_self (m * 100) k
      rw [e] at this
      omega
    · rintro rfl
      rw [Nat.mul_comm, Nat.mul_div_cancel _ hk]
  obtain ⟨h1, h2⟩ := h (k - (max x y - min x y)) (by omega)
  refine ⟨h1, h2.trans ?_⟩
  omega

/-- **C94**: with the numbers of IEEE 754 the probability that `extract_text8` computes for a picture gets to 1, and then is 1, exactly
if each of the twenty features is the same: no rounding error makes up for a difference, and none spoils a match. -/
theorem C94_rounding (i a : Image) (hi : Sized i) (ha : Sized a) :
    (Prob8.le Prob8.one (simpleScore Double i a) = true ↔ Exact8 i a) ∧ Prob8.le (simpleScore Double i a) (Prob8.one : Double) = true := by
  refine ⟨exact8_iff hi ha, ?_⟩
  obtain ⟨ri, hri, _⟩ := hi.rotate
  obtain ⟨ra, hra, _⟩ := ha.rotate
  have hva := val6_ok ha (ha.rotated hra)
  unfold simpleScore
  rw [hri, hra]
  simp only []
  refine (foldl_score (P := Double) (f := fun s : Feat × Policy => likeness s.1.k (numOf (feature s i ri)) (numOf (feature (s.1, .img) a ra)))
    order8 Prob8.one ?_ (le_refl8 _)).1
  intro s hs
  have hs := (order8_simple s).1 hs
  have hk := feat_k s.1
  obtain ⟨x, ex, hx⟩ := feature_simple hs hi (hi.rotated hri)
  rw [ex, (hva s hs).1]
  exact (C94_likeness _ _ _ (by omega) hx (hva s hs).2).1

/-- What `extract_text8` makes of the letter `a` when taught `imgs` with the words `ws`, with the numbers of IEEE 754. -/
def taught64 (imgs : List Image) (ws : List Words) (a : Image) : Res Letter6 := do
  let d ← Datas.empty.loadAll imgs
  let bw ← makeByWord (ws.map some)
  let r ← a.rotate90
  computeLetter8 Double insertionSort ⟨ws, d, bw⟩ a r

/-- The block matches; of the two pictures with a hole the wrong one wins, as with exact fractions. -/
example : taught64 [stick, block] [[[108]], [[111], [48]]] block = .ok ⟨[111], [111], [[111], [48]], [[111], [48]]⟩ ∧
    taught64 [⟨⟨3, 4⟩, [120, 120, 120, 120, 120, 120, 45, 120, 120, 120, 120, 120]⟩, holed] [[[97]], [[98]]]
      ⟨⟨3, 4⟩, [120, 120, 120, 120, 120, 120, 45, 120, 120, 120, 120, 120]⟩ = .ok ⟨[98], [98], [[98]], [[98]]⟩ := by decide +kernel

end Ppocr.Props

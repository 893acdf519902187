import Verif.Model.Zone

/-!
# Similarity of feature values

Model of `src/ppocr/strategies/utils/relationship.hpp`, `src/ppocr/strategies/relationship/*.hpp` and the
relationship of `proportionality_zone`.
-/

namespace Ppocr

/-- A `relationship_type`: `compute`, `in_dist` and `count`.  `dist` is `compute / 100.` everywhere; for
`equal_relationship` (equal.hpp L37-40), whose `compute` is a `bool` and whose `dist` is `1.` or `0.`, the
percentage behind `dist` is given instead. -/
structure Rel (V : Type) where
  compute : V → V → Res Nat
  inDist : V → V → Nat → Res Bool
  count : Nat

/-- `compute_relationship` for `T = U = unsigned` (relationship.hpp L28-35). -/
def computeRel (a b interval : Nat) : Res Nat := do
  let q ← udiv (umul (if a < b then usub b a else usub a b) 100) interval
  let d := usub 100 q
  assert (decide (d ≤ 100))
  return d

/-- `interval_relationship::in_dist` (interval.hpp L44-47). -/
def intervalInDist (a b d : Nat) : Bool :=
  if a < b then decide (b > uadd a d) else decide (a > uadd b d)

/-- `interval_relationship<unsigned, k>` (interval.hpp L26-54). -/
def intervalRel (k : Nat) : Rel Nat where
  compute a b := computeRel a b k
  inDist a b d := .ok (intervalInDist a b d)
  count := uadd k 1

/-- `equal_relationship<unsigned>` (equal.hpp L26-54). -/
def equalRel : Rel Nat where
  compute a b := .ok (if a = b then 100 else 0)
  inDist a b _ := .ok (decide (a = b))
  count := 2

variable {V : Type} [DecidableEq V]

/-- The loop of `array_compare_relationship::compute` (array_compare.hpp L34-41). -/
def sameCount : List V → List V → Nat → Res Nat
  | _, [], n => .ok n
  | [], _ :: _, _ => .ub
  | x :: a, y :: b, n => sameCount a b (if x = y then uadd n 1 else n)

/-- `array_compare_relationship::compute` (array_compare.hpp L32-43); the division is by a `size_t`. -/
def arrayCompute (a b : List V) : Res Nat := do
  let n ← sameCount a b 0
  udiv (umul n 100) a.length

/-- `array_compare_relationship` (array_compare.hpp L26-60). -/
def arrayRel (V : Type) [DecidableEq V] : Rel (List V) where
  compute := arrayCompute
  inDist a b d := do
    let c ← arrayCompute a b
    return decide (c ≥ d)
  count := 101

/-- `std::inner_product` of `proportionality_zone::relationship_type::compute`
(proportionality_zone.cpp L70-74). -/
def pzSum : List Nat → List Nat → Nat → Res Nat
  | [], _, s => .ok s
  | _ :: _, [], _ => .ub
  | x :: a, y :: b, s => do
    let q ← udiv (umul x 100) (uadd x y)
    pzSum a b (uadd s q)

/-- `proportionality_zone::relationship_type::compute` (proportionality_zone.cpp L62-76). -/
def pzCompute (a b : List Nat) : Res Nat :=
  if a.length ≠ b.length then .ok 0
  else if a.isEmpty then .ok 100
  else do
    let s ← pzSum a b 0
    let total ← udiv s a.length
    computeRel total 50 100

/-- `proportionality_zone::relationship_type` (proportionality_zone.cpp L62-95). -/
def pzRel : Rel (List Nat) where
  compute := pzCompute
  inDist a b d := do
    let c ← pzCompute a b
    return decide (c ≥ d)
  count := 101

end Ppocr

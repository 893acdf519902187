import Verif.Basic

/-!
# Reindexing

`src/ppocr/utils/reindex.hpp`. A cell of a vector that was moved from holds `none`: its value is not specified. Reading
it again gives it on, as moving a `std::string` or a vector does; nothing undefined happens.
-/

namespace Ppocr

variable {α : Type}

/-- The write `v[i] = x` or `*(v.begin() + i) = x`; outside of the vector it is undefined. -/
def wrAt (l : List α) (i : Nat) (x : α) : Res (List α) := if i < l.length then .ok (l.set i x) else .ub

/-- `reindex.hpp` L33-36: the new and the old vector after the elements `k`, `k + 1`, …. -/
def moveLoop : List Nat → Nat → List (Option α) → List (Option α) → Res (List (Option α))
  | [], _, _, new => .ok new
  | i :: is, k, cont, new => do
    let x ← rd cont i
    let new ← wrAt new k x
    let cont ← wrAt cont i none
    moveLoop is (k + 1) cont new

/-- `reindex.hpp` L28-38 `reindex`; `dflt` is the value-initialised element. -/
def reindex (dflt : α) (indexes : List Nat) (cont : List α) : Res (List (Option α)) :=
  moveLoop indexes 0 (cont.map some) (List.replicate cont.length (some dflt))

/-- `main/extract_text6.cpp` L689-699 and L779-780: the glyphs and every column of the features are reindexed by the same
indexes. The columns have elements of different types; here `α` stands for all of them. -/
def reindexColumns (indexes : List Nat) : List (α × List α) → Res (List (List (Option α)))
  | [] => .ok []
  | (dflt, c) :: cs => do
    let c' ← reindex dflt indexes c
    let cs' ← reindexColumns indexes cs
    return c' :: cs'

end Ppocr

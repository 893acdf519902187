import Verif.Basic

/-! # The words of a glyph file in memory -/

namespace Ppocr.Spec

/-- The room of a word, in `unsigned`s: its size and its bytes, rounded up. -/
def room (w : List Nat) : Nat := 1 + (w.length + 3) / 4

/-- The place of a word: the room of the words before it. -/
def place : List (List Nat) → List Nat → Nat
  | [], _ => 0
  | v :: ws, w => if v = w then 0 else room v + place ws w

/-- The memory holds the word `w` at the position `i`: its size in the first four bytes, then its bytes. -/
def Holds (b : List (Option Nat)) (i : Nat) (w : List Nat) : Prop :=
  (∀ k : Nat, k < 4 → b[4 * i + k]? = some (some (w.length / 256 ^ k % 256))) ∧
  ∀ k : Nat, ∀ c : Nat, w[k]? = some c → b[4 * i + 4 + k]? = some (some c)

/-- A NUL follows the word `w` at the position `i`. -/
def Terminated (b : List (Option Nat)) (i : Nat) (w : List Nat) : Prop :=
  b[4 * i + 4 + w.length]? = some (some 0)

end Ppocr.Spec

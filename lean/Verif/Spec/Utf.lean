import Verif.Basic

/-! # UTF-8 -/

namespace Ppocr.Spec

/-- The Unicode scalar values, without the terminator U+0000. -/
def Scalar (c : Nat) : Prop := 0 < c ∧ (c < 0xD800 ∨ 0xE000 ≤ c ∧ c < 0x110000)

instance (c : Nat) : Decidable (Scalar c) := by unfold Scalar; infer_instance

/-- The UTF-8 encoding of one scalar value. -/
def enc (c : Nat) : List Nat :=
  if c < 0x80 then [c]
  else if c < 0x800 then [0xC0 + c / 64, 0x80 + c % 64]
  else if c < 0x10000 then [0xE0 + c / 4096, 0x80 + c / 64 % 64, 0x80 + c % 64]
  else [0xF0 + c / 262144, 0x80 + c / 4096 % 64, 0x80 + c / 64 % 64, 0x80 + c % 64]

/-- The encoding of a string. -/
def encAll (cs : List Nat) : List Nat := cs.flatMap enc

/-- The big-endian number whose digits in base 256 are the bytes. -/
def packBytes (l : List Nat) : Nat := l.foldl (fun a b => a * 256 + b) 0

/-- The code the program uses for a character: its encoding, packed. -/
def packed (c : Nat) : Nat := packBytes (enc c)

end Ppocr.Spec

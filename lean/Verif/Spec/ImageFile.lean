import Verif.Spec.Image
import Verif.Model.ImageFile

/-!
# Specification of the accepted image files

Written from the format comment in image_from_file.cpp L121-126, without the parser.
-/

namespace Ppocr.Spec

/-- Value of a string of decimal digits. -/
def decimal : List UInt8 → Nat
  | [] => 0
  | c :: t => (c.toNat - 48) * 10 ^ t.length + decimal t

/-- `d` is a decimal number with value `n`. -/
def IsNum (d : List UInt8) (n : Nat) : Prop :=
  d ≠ [] ∧ (∀ c ∈ d, 48 ≤ c.toNat ∧ c.toNat ≤ 57) ∧ decimal d = n

/-- A (possibly empty) sequence of lines starting with `#`. -/
def IsComments (cs : List UInt8) : Prop :=
  ∃ ls : List (List UInt8), cs = ls.flatMap (fun l => 35 :: (l ++ [10])) ∧ ∀ l ∈ ls, (10 : UInt8) ∉ l

/-- `buf` is a PNM file of type `ty` (the digit after `P`), width `w`, height `h` and raw data
`data`; all numbers fit in 32 bits. -/
def PnmFile (buf : List UInt8) (ty : UInt8) (w h : Nat) (data : List UInt8) : Prop :=
  49 ≤ ty.toNat ∧ ty.toNat ≤ 54 ∧ w < W32 ∧ h < W32 ∧
  ∃ cs dw dh tail : List UInt8, IsComments cs ∧ IsNum dw w ∧ IsNum dh h ∧
    buf = [80, ty, 10] ++ cs ++ dw ++ [32] ++ dh ++ [10] ++ tail ∧
    if ty = 49 ∨ ty = 52 then tail = data
    else ∃ (dm : List UInt8) (m : Nat), m < W32 ∧ IsNum dm m ∧ tail = dm ++ [10] ++ data

/-- Perceived brightness of a colour (the integer weights used by netpbm). -/
def brightness (r g b : UInt8) : Nat :=
  (511 * r.toNat + 511) / 1024 + (396 * g.toNat + 511) / 1024 + (117 * b.toNat + 511) / 1024

/-- Number of bytes of a P4 row. -/
def rowBytes (w : Nat) : Nat := (w + 7) / 8

/-- The digits of an ASCII picture, in order. -/
def digits (data : List UInt8) : List UInt8 := data.filter fun c => c = 48 ∨ c = 49

/-- Only digits and separators. -/
def AsciiData (data : List UInt8) : Prop := ∀ c ∈ data, c = 32 ∨ c = 10 ∨ c = 48 ∨ c = 49

/-- Pixel denoted by a digit of an ASCII picture in this project. -/
def digitPixel (c : UInt8) : Pixel := if c = 48 then chDash else chX

end Ppocr.Spec

import Verif.Spec.ImageFile

/-! # Specification of the files of a drawing in black and white -/

namespace Ppocr.Spec

/-- `buf` is a P6 file of width `w`, height `h`, greatest value `m` and raw data `data`. -/
def ColourFile (buf : List UInt8) (w h m : Nat) (data : List UInt8) : Prop :=
  w < W32 ∧ h < W32 ∧ m < W32 ∧ ∃ cs dw dh dm : List UInt8, IsComments cs ∧ IsNum dw w ∧ IsNum dh h ∧ IsNum dm m ∧
    buf = [80, 54, 10] ++ cs ++ dw ++ [32] ++ dh ++ [10] ++ dm ++ [10] ++ data

/-- The file shows the drawing as netpbm defines the formats: in P1 and P4 a 1 is black, in P6 the greatest value stands for
full brightness. -/
inductive DrawnAs (buf : List UInt8) (w h : Nat) (white : Nat → Nat → Bool) : Prop
  | p1 (data : List UInt8) : PnmFile buf 49 w h data → AsciiData data → (digits data).length = w * h →
      (∀ x y, x < w → y < h → (digits data)[y * w + x]? = some (if white x y then 48 else 49)) → DrawnAs buf w h white
  | p4 (data : List UInt8) : PnmFile buf 52 w h data → data.length = rowBytes w * h →
      (∀ x y b, x < w → y < h → data[y * rowBytes w + x / 8]? = some b → b.toNat.testBit (7 - x % 8) = !white x y) → DrawnAs buf w h white
  | p6 (m : Nat) (data : List UInt8) : 0 < m → m ≤ 255 → ColourFile buf w h m data → data.length = 3 * (w * h) →
      (∀ x y c, x < w → y < h → c < 3 → data[3 * (y * w + x) + c]? = some (if white x y then UInt8.ofNat m else 0)) → DrawnAs buf w h white

/-- The picture whose letter pixels are the white ones. -/
def whiteOn (w h : Nat) (white : Nat → Nat → Bool) : Image :=
  ⟨⟨w, h⟩, (List.range h).flatMap fun y => (List.range w).map fun x => if white x y then chX else chDash⟩

end Ppocr.Spec

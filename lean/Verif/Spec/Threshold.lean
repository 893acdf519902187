import Verif.Spec.Drawing

/-! # Which pixels of a colour file reach the luminance -/

namespace Ppocr.Spec

/-- `buf` is a whole P6 file of width `w`, height `h` and raw data `data`. -/
structure Scan (buf : List UInt8) (w h : Nat) (data : List UInt8) : Prop where
  file : PnmFile buf 54 w h data
  whole : data.length = 3 * (w * h)
  pos : 0 < w * h
  small : w * h < W32

/-- Red (0), green (1) or blue (2) at a place. -/
def colourAt (data : List UInt8) (w x y c : Nat) : UInt8 := data.getD (3 * (y * w + x) + c) 0

/-- The brightness at a place. -/
def brightAt (data : List UInt8) (w x y : Nat) : Nat :=
  brightness (colourAt data w x y 0) (colourAt data w x y 1) (colourAt data w x y 2)

/-- The places of the two pictures are on the same sides of their thresholds. -/
def SameSides (lum lum' w h : Nat) (data data' : List UInt8) : Prop :=
  ∀ x y, x < w → y < h → (lum ≤ brightAt data w x y ↔ lum' ≤ brightAt data' w x y)

/-- No colour differs by more than `d`. -/
def Noisy (d w h : Nat) (data data' : List UInt8) : Prop :=
  ∀ x y c, x < w → y < h → c < 3 → (colourAt data w x y c).toNat ≤ (colourAt data' w x y c).toNat + d ∧
    (colourAt data' w x y c).toNat ≤ (colourAt data w x y c).toNat + d

end Ppocr.Spec

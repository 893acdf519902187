import Verif.Spec.Drawing
import Verif.Props.Letter8
import Verif.Props.Command

/-! # C111: the format of a drawing in black and white -/

namespace Ppocr.Props
open Ppocr Spec

/-- Full statement of **C111**: whatever the format, the white pixels of the drawing become the letter pixels, with every threshold
from 1 to 255. -/
def C111_statement : Prop :=
  ∀ (buf : List UInt8) (lum w h : Nat) (white : Nat → Nat → Bool), DrawnAs buf w h white → 0 < w * h → w * h < W32 → w ≤ 2147483647 →
    0 < lum → lum ≤ 255 → Loaded buf lum (whiteOn w h white)

theorem whiteOn_eq {w h : Nat} {white : Nat → Nat → Bool} {img : Image} (wf : img.WF) (hb : img.bounds = ⟨w, h⟩)
    (hp : ∀ x y, x < w → y < h → pix img x y = some (if white x y then chX else chDash)) : img = whiteOn w h white := by
  have e1 : img.bounds.w = w := by rw [hb]
  have e2 : img.bounds.h = h := by rw [hb]
  have hlen : (whiteOn w h white).data.length = w * h := by
    show (grid h w fun y x => if white x y then chX else chDash).length = _
    rw [grid_length, Nat.mul_comm]
  have hw := wf.small
  have hw1 := wf.w_lt
  have hw2 := wf.h_lt
  rw [e1, e2] at hw
  rw [e1] at hw1
  rw [e2] at hw2
  refine Image.ext_pix wf ⟨hlen, hw, hw1, hw2⟩ ⟨e1, e2, fun x y => ?_⟩
  by_cases h1 : x < w ∧ y < h
  · rw [hp x y h1.1 h1.2]
    exact (pix_grid (fun y x => if white x y then chX else chDash) h1.1 h1.2).symm
  · rw [pix_none (by rw [e1, e2]; exact h1), pix_none (i := whiteOn w h white) h1]

/-- **C111**, partial: a bitmap (P4) of at least nine bytes, with every threshold. -/
theorem C111_p4_partial (buf : List UInt8) (lum w h : Nat) (white : Nat → Nat → Bool) (data : List UInt8) (h9 : 9 ≤ buf.length)
    (hf : PnmFile buf 52 w h data) (hl : data.length = rowBytes w * h)
    (hd : ∀ x y b, x < w → y < h → data[y * rowBytes w + x / 8]? = some b → b.toNat.testBit (7 - x % 8) = !white x y)
    (hpos : 0 < w * h) (hs : w * h < W32) (hw : w ≤ 2147483647) : Loaded buf lum (whiteOn w h white) := by
  obtain ⟨img, h1, wf, hb, hp⟩ := (C07_p4_partial buf lum w h data h9 hf hpos hs hw).1 hl
  rw [← whiteOn_eq wf hb (white := white) ?_]
  · exact h1
  intro x y hx hy
  have hlt : y * rowBytes w + x / 8 < data.length := by
    rw [hl]
    have : x / 8 < rowBytes w := by unfold rowBytes; omega
    have h2 : (y + 1) * rowBytes w ≤ h * rowBytes w := Nat.mul_le_mul_right _ hy
    rw [Nat.succ_mul] at h2
    rw [Nat.mul_comm (rowBytes w) h]
    omega
  rw [hp x y _ hx hy (List.getElem?_eq_getElem hlt), hd x y _ hx hy (List.getElem?_eq_getElem hlt)]
  cases white x y <;> rfl

theorem colourFile_pnm {buf : List UInt8} {w h m : Nat} {data : List UInt8} (hf : ColourFile buf w h m data) : PnmFile buf 54 w h data := by
  obtain ⟨h1, h2, h3, cs, dw, dh, dm, c, nw, nh, nm, rfl⟩ := hf
  refine ⟨by decide, by decide, h1, h2, cs, dw, dh, dm ++ [10] ++ data, c, nw, nh, by simp only [List.append_assoc], ?_⟩
  rw [if_neg (by decide)]
  exact ⟨dm, m, h3, nm, rfl⟩

theorem black_bright : brightness 0 0 0 = 0 := by decide

/-- **C111** for colour files (P6), exactly: the white pixels are the letter pixels if the brightness of the greatest value, taken as
a byte, reaches the threshold; otherwise there are no letter pixels. -/
theorem C111_p6_exact (buf : List UInt8) (lum w h m : Nat) (white : Nat → Nat → Bool) (data : List UInt8)
    (hf : ColourFile buf w h m data) (hl : data.length = 3 * (w * h))
    (hd : ∀ x y c, x < w → y < h → c < 3 → data[3 * (y * w + x) + c]? = some (if white x y then UInt8.ofNat m else 0))
    (hpos : 0 < w * h) (hs : w * h < W32) (h0 : 0 < lum) :
    Loaded buf lum (whiteOn w h fun x y =>
      white x y && decide (lum ≤ brightness (UInt8.ofNat m) (UInt8.ofNat m) (UInt8.ofNat m))) := by
  obtain ⟨img, h1, wf, hb, hp⟩ := (C06_p6 buf lum w h data (colourFile_pnm hf) hpos hs).1 hl
  rw [← whiteOn_eq wf hb ?_]
  · exact h1
  intro x y hx hy
  rw [hp x y _ _ _ hx hy (hd x y 0 hx hy (by omega)) (hd x y 1 hx hy (by omega)) (hd x y 2 hx hy (by omega))]
  cases white x y with
  | false => simp only [Bool.false_eq_true, if_false, Bool.false_and]; rw [if_pos (by rw [black_bright]; exact h0)]
  | true =>
    simp only [if_true, Bool.true_and, decide_eq_true_eq]
    by_cases hc : lum ≤ brightness (UInt8.ofNat m) (UInt8.ofNat m) (UInt8.ofNat m)
    · rw [if_neg (by omega), if_pos hc]
    · rw [if_pos (by omega), if_neg hc]

/-- **C111**, partial: a colour file (P6) with the greatest value 255, with every threshold from 1 to 255. -/
theorem C111_p6_partial (buf : List UInt8) (lum w h : Nat) (white : Nat → Nat → Bool) (data : List UInt8)
    (hf : ColourFile buf w h 255 data) (hl : data.length = 3 * (w * h))
    (hd : ∀ x y c, x < w → y < h → c < 3 → data[3 * (y * w + x) + c]? = some (if white x y then 255 else 0))
    (hpos : 0 < w * h) (hs : w * h < W32) (h0 : 0 < lum) (h1 : lum ≤ 255) : Loaded buf lum (whiteOn w h white) := by
  have := C111_p6_exact buf lum w h 255 white data hf hl hd hpos hs h0
  rw [show brightness (UInt8.ofNat 255) (UInt8.ofNat 255) (UInt8.ofNat 255) = 255 by decide] at this
  simpa only [decide_eq_true h1, Bool.and_true] using this

/-- **C111** is never true of the text format (P1): the file of a whole drawing is refused. -/
theorem C111_p1_refused (buf : List UInt8) (lum w h : Nat) (data : List UInt8) (hf : PnmFile buf 49 w h data)
    (hd : (digits data).length = w * h) (hpos : 0 < w * h) (hs : w * h < W32) : imageFromBytes buf lum = .throw := by
  by_cases h9 : 9 ≤ buf.length
  · exact C08_exact_rejected buf lum 49 w h data (.inl rfl) h9 hf hpos hs hd
  · exact throw_of_no_header (header_of_short (by omega))

/-! ### The programs -/

/-- A file that can be read completely. -/
structure Readable (e : FileEnv) : Prop where
  openOk : e.openOk = true
  statOk : e.statOk = true
  size : e.size = e.content.length
  reads : ∀ ev ∈ e.sched, ev ≠ ReadEv.error

theorem loadImage_loaded {e : FileEnv} (he : Readable e) {lum : Nat} {i : Image} (h : Loaded e.content lum i) : loadImage e lum = .ok i := by
  unfold loadImage
  rw [(C10_short_reads e lum he.openOk he.statOk he.size).1 he.reads, h, Res.ok_bind, RawImage.image, RawImage.toImage]
  dsimp only
  rw [mapM_some]
  rfl

/-- The formats for which **C111** holds. -/
inductive DrawnWell (buf : List UInt8) (w h : Nat) (white : Nat → Nat → Bool) : Prop
  | p4 (data : List UInt8) : 9 ≤ buf.length → PnmFile buf 52 w h data → data.length = rowBytes w * h →
      (∀ x y b, x < w → y < h → data[y * rowBytes w + x / 8]? = some b → b.toNat.testBit (7 - x % 8) = !white x y) → DrawnWell buf w h white
  | p6 (data : List UInt8) : ColourFile buf w h 255 data → data.length = 3 * (w * h) →
      (∀ x y c, x < w → y < h → c < 3 → data[3 * (y * w + x) + c]? = some (if white x y then 255 else 0)) → DrawnWell buf w h white

theorem DrawnWell.load {e : FileEnv} (he : Readable e) {w h lum : Nat} {white : Nat → Nat → Bool} (hd : DrawnWell e.content w h white)
    (hpos : 0 < w * h) (hs : w * h < W32) (hw : w ≤ 2147483647) (h0 : 0 < lum) (h1 : lum ≤ 255) :
    loadImage e lum = .ok (whiteOn w h white) := by
  refine loadImage_loaded he ?_
  cases hd with
  | p4 data h9 hf hl hd => exact C111_p4_partial _ lum w h white data h9 hf hl hd hpos hs hw
  | p6 data hf hl hd => exact C111_p6_partial _ lum w h white data hf hl hd hpos hs h0 h1

/-- **C111**, partial: with the drawing of a line as a bitmap or a colour file, with comments or without, the three programs answer
the same, and `write_glyphs` and `show_glyphs` print the same, with every luminance from 1 to 255. Missing: the text formats, other
greatest values, and bitmaps of eight bytes. -/
theorem C111_programs_partial {P : Type} [Dbl P] {Q : Type} [Prob8 Q] (S : StdSort) (mv : List Nat → List Nat) (f : ProgFiles) (e : FileEnv) (w h : Nat)
    (white : Nat → Nat → Bool) (hf : Readable f.image) (he : Readable e) (hd : DrawnWell f.image.content w h white)
    (hd' : DrawnWell e.content w h white) (hpos : 0 < w * h) (hs : w * h < W32) (hw : w ≤ 2147483647) :
    program P S { f with image := e } = program P S f ∧ program6 S { f with image := e } = program6 S f ∧
    program8 Q S mv { f with image := e } = program8 Q S mv f ∧
    ∀ lum lum' text font, 0 < lum → lum ≤ 255 → 0 < lum' → lum' ≤ 255 →
      loadFile lum ⟨e, text, font⟩ = loadFile lum' ⟨f.image, text, font⟩ ∧ showFile lum e = showFile lum' f.image := by
  have h1 := hd.load hf hpos hs hw (lum := 128) (by decide) (by decide)
  have h2 := hd'.load he hpos hs hw (lum := 128) (by decide) (by decide)
  refine ⟨?_, ?_, ?_, ?_⟩
  · unfold program
    rw [h1, h2]
  · unfold program6
    rw [h1, h2]
  · unfold program8 tables8
    rw [h1, h2]
  · intro lum lum' text font a b a' b'
    unfold loadFile showFile
    dsimp only
    rw [hd.load hf hpos hs hw a' b', hd'.load he hpos hs hw a b]
    exact ⟨rfl, rfl⟩

/-! ### Examples -/

/-- White, black. -/
def whiteBlack : Nat → Nat → Bool := fun x _ => x == 0

/-- `P1\n2 1\n0 1\n` -/
def drawing1 : List UInt8 := [80, 49, 10, 50, 32, 49, 10, 48, 32, 49, 10]

/-- `P4\n#c\n2 1\n` and a byte. -/
def drawing4 : List UInt8 := [80, 52, 10, 35, 99, 10, 50, 32, 49, 10, 64]

/-- `P6\n2 1\n255\n` and six bytes. -/
def drawing6 : List UInt8 := [80, 54, 10, 50, 32, 49, 10, 50, 53, 53, 10, 255, 255, 255, 0, 0, 0]

/-- `P6\n2 1\n1\n` and six bytes. -/
def drawing61 : List UInt8 := [80, 54, 10, 50, 32, 49, 10, 49, 10, 1, 1, 1, 0, 0, 0]

theorem x_two {x : Nat} (h : x < 2) : x = 0 ∨ x = 1 := by omega

theorem drawing1_drawn : DrawnAs drawing1 2 1 whiteBlack := by
  refine .p1 [48, 32, 49, 10] ?_ (by unfold AsciiData; decide) (by decide) ?_
  · refine ⟨by decide, by decide, by decide, by decide, [], [50], [49], [48, 32, 49, 10], ⟨[], by decide, by decide⟩,
      ⟨by decide, by decide, by decide⟩, ⟨by decide, by decide, by decide⟩, by decide, ?_⟩
    rw [if_pos (by decide)]
  · intro x y hx hy
    obtain rfl : y = 0 := by omega
    rcases x_two hx with rfl | rfl <;> decide

theorem drawing4_drawn : DrawnWell drawing4 2 1 whiteBlack := by
  refine .p4 [64] (by decide) ?_ (by decide) ?_
  · refine ⟨by decide, by decide, by decide, by decide, [35, 99, 10], [50], [49], [64], ⟨[[99]], by decide, by decide⟩,
      ⟨by decide, by decide, by decide⟩, ⟨by decide, by decide, by decide⟩, by decide, ?_⟩
    rw [if_pos (by decide)]
  · intro x y b hx hy hb
    obtain rfl : y = 0 := by omega
    rcases x_two hx with rfl | rfl
    · rw [show [(64 : UInt8)][0 * rowBytes 2 + 0 / 8]? = some 64 from rfl, Option.some.injEq] at hb
      subst hb
      decide
    · rw [show [(64 : UInt8)][0 * rowBytes 2 + 1 / 8]? = some 64 from rfl, Option.some.injEq] at hb
      subst hb
      decide

theorem drawing6_drawn : DrawnWell drawing6 2 1 whiteBlack := by
  refine .p6 [255, 255, 255, 0, 0, 0] ?_ (by decide) ?_
  · exact ⟨by decide, by decide, by decide, [], [50], [49], [50, 53, 53], ⟨[], by decide, by decide⟩, ⟨by decide, by decide, by decide⟩,
      ⟨by decide, by decide, by decide⟩, ⟨by decide, by decide, by decide⟩, by decide⟩
  · intro x y c hx hy hc
    obtain rfl : y = 0 := by omega
    have : c = 0 ∨ c = 1 ∨ c = 2 := by omega
    rcases x_two hx with rfl | rfl <;> rcases this with rfl | rfl | rfl <;> decide

theorem drawing61_drawn : DrawnAs drawing61 2 1 whiteBlack := by
  refine .p6 1 [1, 1, 1, 0, 0, 0] (by decide) (by decide) ?_ (by decide) ?_
  · exact ⟨by decide, by decide, by decide, [], [50], [49], [49], ⟨[], by decide, by decide⟩, ⟨by decide, by decide, by decide⟩,
      ⟨by decide, by decide, by decide⟩, ⟨by decide, by decide, by decide⟩, by decide⟩
  · intro x y c hx hy hc
    obtain rfl : y = 0 := by omega
    have : c = 0 ∨ c = 1 ∨ c = 2 := by omega
    rcases x_two hx with rfl | rfl <;> rcases this with rfl | rfl | rfl <;> decide

/-- The bitmap and the colour file are read as `x-`, the latter with the greatest value 1 as `--`, and the text file is refused. -/
theorem C111_four : Loaded drawing4 128 ⟨⟨2, 1⟩, [120, 45]⟩ ∧ Loaded drawing6 128 ⟨⟨2, 1⟩, [120, 45]⟩ ∧
    Loaded drawing61 128 ⟨⟨2, 1⟩, [45, 45]⟩ ∧ imageFromBytes drawing1 128 = .throw := by
  refine ⟨?_, ?_, ?_, ?_⟩ <;> first | (unfold Loaded; decide +kernel) | decide +kernel

/-- **C111** is false: of the text format. -/
theorem C111_false : ¬ C111_statement := by
  intro h
  have := h drawing1 128 2 1 whiteBlack drawing1_drawn (by decide) (by decide) (by decide) (by decide) (by decide)
  unfold Loaded at this
  rw [C111_four.2.2.2] at this
  cases this

/-- **C111** is false: of colour files with another greatest value. -/
theorem C111_dim : ¬ Loaded drawing61 128 (whiteOn 2 1 whiteBlack) := by
  intro h
  have h1 := C111_four.2.2.1
  unfold Loaded at h h1
  rw [h, Res.ok.injEq] at h1
  exact absurd h1 (by decide)

end Ppocr.Props

import Verif.Proofs.ImageFile

/-! # C06–C11: reading image files -/

namespace Ppocr.Props
open Ppocr Spec

/-- A fully initialised picture returned by the loader. -/
def Loaded (buf : List UInt8) (lum : Nat) (img : Image) : Prop :=
  imageFromBytes buf lum = .ok ⟨img.bounds, img.data.map some⟩

theorem throw_of_no_header {buf : List UInt8} {lum : Nat} (h : parseHeader buf = none) :
    imageFromBytes buf lum = .throw := by
  simp [imageFromBytes, h]

theorem header_of_short {buf : List UInt8} (h : buf.length < 9) : parseHeader buf = none := by
  simp [parseHeader, h]

theorem cells_full {o : Out Pixel} (h : o.done.length = o.cap) : o.cells = o.done.map some := by
  simp [Out.cells, h]

/-- A P6 file of one red and one white pixel: `P6\n#c\n2 1\n255\n` + 6 bytes. -/
def p6File : List UInt8 :=
  [80, 54, 10, 35, 99, 10, 50, 32, 49, 10, 50, 53, 53, 10, 255, 0, 0, 255, 255, 255]

theorem p6File_ok : PnmFile p6File 54 2 1 [255, 0, 0, 255, 255, 255] := by
  refine ⟨by decide, by decide, by decide, by decide, [35, 99, 10], [50], [49],
    [50, 53, 53, 10, 255, 0, 0, 255, 255, 255], ⟨[[99]], by decide, by decide⟩,
    ⟨by decide, by decide, by decide⟩, ⟨by decide, by decide, by decide⟩, by decide, ?_⟩
  rw [if_neg (by decide)]
  exact ⟨[50, 53, 53], 255, by decide, ⟨by decide, by decide, by decide⟩, by decide⟩

/-- **C06.** A well-formed P6 file whose data has exactly three bytes per pixel is accepted and each
pixel is a letter exactly when its brightness reaches the threshold; any other amount of data is
rejected with an exception. -/
theorem C06_p6 (buf : List UInt8) (lum w h : Nat) (data : List UInt8)
    (hf : PnmFile buf 54 w h data) (hpos : 0 < w * h) (hs : w * h < W32) :
    (data.length = 3 * (w * h) →
      ∃ img : Image, Loaded buf lum img ∧ img.WF ∧ img.bounds = ⟨w, h⟩ ∧
        ∀ x y r g b, x < w → y < h → data[3 * (y * w + x)]? = some r →
          data[3 * (y * w + x) + 1]? = some g → data[3 * (y * w + x) + 2]? = some b →
          pix img x y = some (if brightness r g b < lum then chDash else chX)) ∧
    (data.length ≠ 3 * (w * h) → imageFromBytes buf lum = .throw) := by
  by_cases h9 : 9 ≤ buf.length
  · obtain ⟨m, hp⟩ := (parseHeader_iff buf 54 w h data).2 ⟨h9, hf⟩
    constructor
    · intro hl
      have hdec := decodeP6_ok lum (w * h) data ⟨w * h, []⟩ (by omega) (by simp)
      refine ⟨⟨⟨w, h⟩, (List.range (w * h)).map (p6Pixel lum data)⟩, ?_,
        ⟨by simp, hs, hf.2.2.1, hf.2.2.2.1⟩, rfl, ?_⟩
      · unfold Loaded imageFromBytes
        rw [hp]
        simp only [if_true]
        rw [if_neg (by omega), if_neg (by omega), if_neg (by omega), hdec]
        simp only [Res.ok_bind, Res.pure_eq]
        rw [cells_full (by simp)]
        simp
      · intro x y r g b hx hy hr hg hb
        rw [pix_eq hx hy]
        have := idx_lt hx hy
        simp [this, p6Pixel, hr, hg, hb]
    · intro hl
      unfold imageFromBytes
      rw [hp]
      simp only [if_true]
      rw [if_neg (by omega), if_neg (by omega), if_pos (by omega)]
  · have hno := throw_of_no_header (lum := lum) (header_of_short (by omega : buf.length < 9))
    constructor
    · intro hl
      obtain ⟨_, _, _, _, cs, dw, dh, tail, _, ⟨h1, _⟩, ⟨h2, _⟩, hb, ht⟩ := hf
      rw [if_neg (by decide)] at ht
      obtain ⟨dm, _, _, ⟨h3, _⟩, ht⟩ := ht
      exfalso
      rw [hb, ht] at h9
      have l1 := List.length_pos_iff.2 h1
      have l2 := List.length_pos_iff.2 h2
      have l3 := List.length_pos_iff.2 h3
      simp at h9
      omega
    · intro _; exact hno

/-- **C06.** The brightness of a colour fits in the `unsigned char` it is stored in. -/
theorem C06_no_overflow (r g b : UInt8) : luma r g b = brightness r g b ∧ brightness r g b ≤ 255 :=
  luma_eq r g b

example : ∃ img : Image, Loaded p6File 200 img ∧ pix img 0 0 = some chDash ∧ pix img 1 0 = some chX := by
  obtain ⟨img, h1, _, _, h2⟩ := (C06_p6 _ 200 2 1 _ p6File_ok (by decide) (by decide)).1 (by decide)
  exact ⟨img, h1, (h2 0 0 255 0 0 (by decide) (by decide) rfl rfl rfl).trans (by decide),
    (h2 1 0 255 255 255 (by decide) (by decide) rfl rfl rfl).trans (by decide)⟩

/-- **C07 (partial).** P4 files of at least nine bytes and of width at most `INT_MAX`: accepted
exactly when the data has `ceil(w/8)*h` bytes, and then pixel `(x,y)` is background exactly when its
bit is set; all reads are inside the file buffer.
Missing with respect to C07: files shorter than nine bytes (`C07_small_file_rejected`) and widths
above `INT_MAX` (`C07_wide_out_of_bounds`), where the claim is false of the code. -/
theorem C07_p4_partial (buf : List UInt8) (lum w h : Nat) (data : List UInt8) (h9 : 9 ≤ buf.length)
    (hf : PnmFile buf 52 w h data) (hpos : 0 < w * h) (hs : w * h < W32) (hw : w ≤ 2147483647) :
    (data.length = rowBytes w * h →
      ∃ img : Image, Loaded buf lum img ∧ img.WF ∧ img.bounds = ⟨w, h⟩ ∧
        ∀ x y b, x < w → y < h → data[y * rowBytes w + x / 8]? = some b →
          pix img x y = some (if b.toNat.testBit (7 - x % 8) then chDash else chX)) ∧
    (data.length ≠ rowBytes w * h → imageFromBytes buf lum = .throw) := by
  obtain ⟨m, hp⟩ := (parseHeader_iff buf 52 w h data).2 ⟨h9, hf⟩
  have hw0 : 0 < w := Nat.pos_of_mul_pos_right hpos
  have hlen : p4Len w h = rowBytes w * h := by
    unfold p4Len rowBytes
    rw [uadd_eq (by simp only [W32]; omega)]
    apply umul_eq
    have : (w + 7) / 8 * h ≤ w * h := Nat.mul_le_mul_right h (by omega)
    omega
  constructor
  · intro hl
    have hdec := decodeP4_ok w hw data h 0 ⟨w * h, []⟩ (by rw [hl]; simp [Nat.mul_comm])
      (by simp [Nat.mul_comm]) (by simp [grid_zero])
    simp only [Nat.zero_mul, List.drop_zero, Nat.zero_add] at hdec
    refine ⟨⟨⟨w, h⟩, grid h w (fun r c => p4Pixel (data.drop (r * rowBytes w)) c)⟩, ?_,
      grid_WF _ hf.2.2.1 hf.2.2.2.1 hs, rfl, ?_⟩
    · unfold Loaded imageFromBytes
      rw [hp]
      simp only
      rw [if_neg (by omega), if_neg (by omega), if_neg (by decide), if_pos trivial, if_neg (by omega), hdec]
      simp only [Res.ok_bind, Res.pure_eq]
      rw [cells_full (by simp [Nat.mul_comm])]
    · intro x y b hx hy hb
      rw [pix_grid _ hx hy]
      unfold p4Pixel
      rw [Nat.testBit_eq_decide_div_mod_eq]
      simp [List.getD, hb]
  · intro hl
    unfold imageFromBytes
    rw [hp]
    simp only
    rw [if_neg (by omega), if_neg (by omega), if_neg (by decide), if_pos trivial, if_pos (by omega)]

/-- `P4\n9 1\n` followed by the bytes 0x80 0x00. -/
def p4File : List UInt8 := [80, 52, 10, 57, 32, 49, 10, 128, 0]

theorem p4File_ok : PnmFile p4File 52 9 1 [128, 0] := by
  refine ⟨by decide, by decide, by decide, by decide, [], [57], [49], [128, 0],
    ⟨[], by decide, by decide⟩, ⟨by decide, by decide, by decide⟩,
    ⟨by decide, by decide, by decide⟩, by decide, ?_⟩
  rw [if_pos (by decide)]

example : ∃ img : Image, Loaded p4File 0 img ∧ pix img 0 0 = some chDash ∧ pix img 8 0 = some chX := by
  obtain ⟨img, h1, _, _, h2⟩ := (C07_p4_partial _ 0 9 1 _ (by decide) p4File_ok (by decide)
    (by decide) (by decide)).1 (by decide)
  exact ⟨img, h1, (h2 0 0 128 (by decide) (by decide) rfl).trans (by decide),
    (h2 8 0 0 (by decide) (by decide) rfl).trans (by decide)⟩

/-- `P4\n1 1\n` + one byte: a valid picture of one pixel, eight bytes long. -/
def p4Tiny : List UInt8 := [80, 52, 10, 49, 32, 49, 10, 128]

/-- **C07 violated.** The smallest valid P4 file is rejected because of the nine byte minimum. -/
theorem C07_small_file_rejected :
    PnmFile p4Tiny 52 1 1 [128] ∧ [(128 : UInt8)].length = rowBytes 1 * 1 ∧
    ∀ lum, imageFromBytes p4Tiny lum = .throw := by
  refine ⟨?_, by decide, fun lum => throw_of_no_header (by decide)⟩
  refine ⟨by decide, by decide, by decide, by decide, [], [49], [49], [128],
    ⟨[], by decide, by decide⟩, ⟨by decide, by decide, by decide⟩,
    ⟨by decide, by decide, by decide⟩, by decide, ?_⟩
  rw [if_pos (by decide)]

/-- `P4\n4294967295 1\n` and no data at all. -/
def p4Wide : List UInt8 := [80, 52, 10, 52, 50, 57, 52, 57, 54, 55, 50, 57, 53, 32, 49, 10]

/-- **C07 violated.** For widths close to 2^32 the row size computed in 32 bits wraps to 0: a file
without any data passes the size check and the decoder reads past the end of the file buffer. -/
theorem C07_wide_out_of_bounds (lum : Nat) : imageFromBytes p4Wide lum = .ub := by
  have hp : parseHeader p4Wide = some ⟨52, 4294967295, 1, 0, []⟩ := by decide
  have hl : p4Len 4294967295 1 = 0 := by decide
  unfold imageFromBytes
  rw [hp]
  simp only [hl]
  rw [if_neg (by decide), if_neg (by decide), if_neg (by decide), if_pos trivial, if_neg (by decide)]
  unfold decodeP4
  rw [show (4294967295 : Nat) = 4294967294 + 1 from rfl]
  unfold decodeP4Row
  simp [fetchP4]

/-- Files read by the ASCII branch. -/
def AsciiType (ty : UInt8) : Prop := ty = 49 ∨ ty = 51

/-- Exact behaviour of the ASCII branch. -/
theorem ascii_exact (buf : List UInt8) (lum : Nat) (ty : UInt8) (w h : Nat) (data : List UInt8)
    (hty : AsciiType ty) (h9 : 9 ≤ buf.length) (hf : PnmFile buf ty w h data) (hpos : 0 < w * h)
    (hs : w * h < W32) :
    (AsciiData data ∧ (digits data).length < w * h ∧ imageFromBytes buf lum =
      .ok ⟨⟨w, h⟩, (digits data).map (some ∘ digitPixel) ++
        List.replicate (w * h - (digits data).length) none⟩) ∨
    (¬ (AsciiData data ∧ (digits data).length < w * h) ∧ imageFromBytes buf lum = .throw) := by
  obtain ⟨m, hp⟩ := (parseHeader_iff buf ty w h data).2 ⟨h9, hf⟩
  have h54 : ty ≠ 54 := by rintro rfl; rcases hty with h | h <;> simp at h
  have h52 : ty ≠ 52 := by rintro rfl; rcases hty with h | h <;> simp at h
  have h13 : ty = 51 ∨ ty = 49 := hty.symm
  have hrun : imageFromBytes buf lum = (do
        let (p, o) ← decodeAscii (w * h) data 0 ⟨w * h, []⟩
        if skipBlank p ≠ [] then .throw
        else return { bounds := ⟨w, h⟩, cells := o.cells }) := by
    unfold imageFromBytes
    rw [hp]
    simp only
    rw [if_neg (by omega), if_neg (by omega), if_neg h54, if_neg h52, if_pos h13]
  rcases decodeAscii_spec (w * h) data 0 ⟨w * h, []⟩ rfl hpos rfl with ⟨h1, h2, h3⟩ | ⟨h1, h2⟩
  · left
    refine ⟨h1, by omega, ?_⟩
    rw [hrun, h3]
    simp [skipBlank, Out.cells]
  · right
    refine ⟨by simpa using h1, ?_⟩
    rw [hrun]
    rcases h2 with h2 | ⟨c, t, o', h2, h3⟩
    · simp [h2]
    · rw [h2]
      have : c ≠ 32 ∧ c ≠ 10 := by rcases h3 with rfl | rfl <;> decide
      simp [skipBlank, this]

/-- **C08 (partial).** What does hold of the ASCII branch: the pixels that are written are the digits
of the file in order, and a file with more than `w*h` digits or with another character is rejected.
Missing: acceptance of exact files and rejection of truncated ones, which are false of the code
(`C08_exact_rejected`, `C08_uninitialised`). -/
theorem C08_ascii_partial (buf : List UInt8) (lum : Nat) (ty : UInt8) (w h : Nat) (data : List UInt8)
    (hty : AsciiType ty) (h9 : 9 ≤ buf.length) (hf : PnmFile buf ty w h data) (hpos : 0 < w * h)
    (hs : w * h < W32) :
    (∀ r, imageFromBytes buf lum = .ok r → r.bounds = ⟨w, h⟩ ∧ r.cells.length = w * h ∧
      ∀ (k : Nat) c, (digits data)[k]? = some c → r.cells[k]? = some (some (digitPixel c))) ∧
    ((¬ AsciiData data ∨ w * h < (digits data).length) → imageFromBytes buf lum = .throw) := by
  rcases ascii_exact buf lum ty w h data hty h9 hf hpos hs with ⟨h1, h2, h3⟩ | ⟨h1, h2⟩
  · constructor
    · intro r hr
      rw [h3] at hr
      obtain rfl := Res.ok.inj hr
      refine ⟨rfl, by simp; omega, ?_⟩
      intro k c hk
      have hk' : k < (digits data).length := (List.getElem?_eq_some_iff.1 hk).1
      rw [List.getElem?_append_left (by simpa using hk')]
      simp [hk]
    · rintro (h | h)
      · exact absurd h1 h
      · omega
  · exact ⟨fun r hr => by rw [h2] at hr; simp at hr, fun _ => h2⟩

/-- **C08 violated.** *Every* ASCII file with exactly the announced number of digits is rejected. -/
theorem C08_exact_rejected (buf : List UInt8) (lum : Nat) (ty : UInt8) (w h : Nat)
    (data : List UInt8) (hty : AsciiType ty) (h9 : 9 ≤ buf.length) (hf : PnmFile buf ty w h data)
    (hpos : 0 < w * h) (hs : w * h < W32) (hd : (digits data).length = w * h) :
    imageFromBytes buf lum = .throw := by
  rcases ascii_exact buf lum ty w h data hty h9 hf hpos hs with ⟨_, h2, _⟩ | ⟨_, h2⟩
  · omega
  · exact h2

/-- **C08 violated.** *Every* picture accepted from an ASCII file has an uninitialised pixel. -/
theorem C08_uninitialised (buf : List UInt8) (lum : Nat) (ty : UInt8) (w h : Nat)
    (data : List UInt8) (hty : AsciiType ty) (h9 : 9 ≤ buf.length) (hf : PnmFile buf ty w h data)
    (hpos : 0 < w * h) (hs : w * h < W32) (r : RawImage) (hr : imageFromBytes buf lum = .ok r) :
    none ∈ r.cells := by
  rcases ascii_exact buf lum ty w h data hty h9 hf hpos hs with ⟨_, h2, h3⟩ | ⟨_, h2⟩
  · rw [h3] at hr
    obtain rfl := Res.ok.inj hr
    simp only [List.mem_append, List.mem_replicate]
    right; exact ⟨by omega, trivial⟩
  · rw [h2] at hr; simp at hr

/-- `P1\n2 1\n0 1`. -/
def p1File : List UInt8 := [80, 49, 10, 50, 32, 49, 10, 48, 32, 49]
/-- `P1\n3 1\n0 1`: one digit missing. -/
def p1Short : List UInt8 := [80, 49, 10, 51, 32, 49, 10, 48, 32, 49]

example : imageFromBytes p1File 0 = .throw := by decide
example : imageFromBytes p1Short 0 = .ok ⟨⟨3, 1⟩, [some chDash, some chX, none]⟩ := by decide
example : PnmFile p1File 49 2 1 [48, 32, 49] ∧ AsciiType 49 := by
  refine ⟨⟨by decide, by decide, by decide, by decide, [], [50], [49], [48, 32, 49],
    ⟨[], by decide, by decide⟩, ⟨by decide, by decide, by decide⟩,
    ⟨by decide, by decide, by decide⟩, by decide, ?_⟩, by simp [AsciiType]⟩
  rw [if_pos (by decide)]

/-- **C09 (partial).** For every byte string the loader throws, or returns a buffer of exactly
`w*h < 2^32` cells where `w, h > 0` are the dimensions of a well-formed header of type 1, 3, 4 or 6;
the only other outcome is undefined behaviour on P4 headers of width above `INT_MAX`
(reachable: `C07_wide_out_of_bounds`), which is why this is only partial. -/
theorem C09_outcome_partial (buf : List UInt8) (lum : Nat) :
    imageFromBytes buf lum = .throw ∨
    (∃ r w h ty data, imageFromBytes buf lum = .ok r ∧ PnmFile buf ty w h data ∧
      (ty = 49 ∨ ty = 51 ∨ ty = 52 ∨ ty = 54) ∧ 0 < w ∧ 0 < h ∧ w * h < W32 ∧
      r.bounds = ⟨w, h⟩ ∧ r.cells.length = w * h) ∨
    (∃ w h data, PnmFile buf 52 w h data ∧ 2147483647 < w) := by
  cases hp : parseHeader buf with
  | none => left; exact throw_of_no_header hp
  | some hd =>
    obtain ⟨ty, w, h, m, data⟩ := hd
    obtain ⟨h9, hf⟩ := (parseHeader_iff buf ty w h data).1 ⟨m, hp⟩
    by_cases h0 : w * h = 0
    · left; simp [imageFromBytes, hp, h0]
    by_cases hs : w * h ≥ W32
    · left
      unfold imageFromBytes
      rw [hp]
      simp only
      rw [if_neg h0, if_pos hs]
    have hpos : 0 < w * h := by omega
    have hs' : w * h < W32 := by omega
    have hw0 : 0 < w := Nat.pos_of_mul_pos_right hpos
    have hh0 : 0 < h := Nat.pos_of_mul_pos_left hpos
    by_cases h54 : ty = 54
    · subst h54
      have := C06_p6 buf lum w h data hf hpos hs'
      by_cases hl : data.length = 3 * (w * h)
      · obtain ⟨img, h1, h2, h3, _⟩ := this.1 hl
        right; left
        refine ⟨_, w, h, 54, data, h1, hf, by decide, hw0, hh0, hs', h3, ?_⟩
        simp [h2.len, h3]
      · left; exact this.2 hl
    by_cases h52 : ty = 52
    · subst h52
      by_cases hw : w ≤ 2147483647
      · have := C07_p4_partial buf lum w h data h9 hf hpos hs' hw
        by_cases hl : data.length = rowBytes w * h
        · obtain ⟨img, h1, h2, h3, _⟩ := this.1 hl
          right; left
          refine ⟨_, w, h, 52, data, h1, hf, by decide, hw0, hh0, hs', h3, ?_⟩
          simp [h2.len, h3]
        · left; exact this.2 hl
      · right; right
        exact ⟨w, h, data, hf, by omega⟩
    by_cases hA : AsciiType ty
    · rcases ascii_exact buf lum ty w h data hA h9 hf hpos hs' with ⟨_, h2, h3⟩ | ⟨_, h2⟩
      · right; left
        refine ⟨_, w, h, ty, data, h3, hf, ?_, hw0, hh0, hs', rfl, ?_⟩
        · rcases hA with h | h <;> simp [h]
        · simp; omega
      · left; exact h2
    · left
      unfold imageFromBytes
      rw [hp]
      simp only
      rw [if_neg (by omega), if_neg (by omega), if_neg h54, if_neg h52,
        if_neg (fun e => hA (Or.symm e))]

example : imageFromBytes [80, 54, 10, 50, 32, 120, 10, 50, 53, 53, 10, 0] 0 = .throw := by decide

/-- **C10.** When the file keeps its size, the loader sees exactly its content whatever positive
amounts the kernel delivers on each `read`; and the only other possible outcome is an exception when
some `read` fails. -/
theorem C10_short_reads (e : FileEnv) (lum : Nat) (ho : e.openOk = true) (hst : e.statOk = true)
    (hsz : e.size = e.content.length) :
    ((∀ ev ∈ e.sched, ev ≠ ReadEv.error) → imageFromFile e lum = imageFromBytes e.content lum) ∧
    (imageFromFile e lum = imageFromBytes e.content lum ∨
      (imageFromFile e lum = .throw ∧ ReadEv.error ∈ e.sched)) := by
  have key : readLoop e.sched e.content e.size.toNat [] = .ok (e.content.map some) →
      imageFromFile e lum = imageFromBytes e.content lum := by
    intro h
    unfold imageFromFile readAll
    simp only [ho, hst, Bool.not_true, Bool.false_eq_true, if_false]
    rw [if_neg (by omega), h]
    simp only [Res.ok_bind, initialised, mapM_some]
  have hs : e.size.toNat = e.content.length := by omega
  constructor
  · intro h
    apply key
    rw [readLoop_ok _ _ _ _ h, hs]
    simp
  · rcases readLoop_cases e.sched e.content e.size.toNat [] with h | ⟨h, h'⟩
    · left; apply key; rw [h, hs]; simp
    · right
      refine ⟨?_, h'⟩
      unfold imageFromFile readAll
      simp only [ho, hst, Bool.not_true, Bool.false_eq_true, if_false]
      rw [if_neg (by omega), h]
      simp

/-- **C10.** `open` or `fstat` failing, or a negative size, gives an exception. -/
theorem C10_env_errors (e : FileEnv) (lum : Nat)
    (h : e.openOk = false ∨ e.statOk = false ∨ e.size < 0) : imageFromFile e lum = .throw := by
  unfold imageFromFile readAll
  cases h1 : e.openOk <;> cases h2 : e.statOk <;> simp_all

/-- **C10, limit.** If the file shrinks between `fstat` and the last `read`, the loop ends normally
on the early end of file and the tail of the buffer stays uninitialised: no error is reported. -/
theorem C10_shrunk_file (e : FileEnv) (ho : e.openOk = true) (hst : e.statOk = true)
    (hsz : (e.content.length : Int) < e.size) (h : ∀ ev ∈ e.sched, ev ≠ ReadEv.error) :
    readAll e = .ok (e.content.map some ++
      List.replicate (e.size.toNat - e.content.length) none) := by
  unfold readAll
  simp only [ho, hst, Bool.not_true, Bool.false_eq_true, if_false]
  rw [if_neg (by omega), readLoop_ok _ _ _ _ h]
  rw [List.take_of_length_le (by omega)]
  simp

/-- **C10, limit.** Hence the picture of such a file is undefined, whatever was read of it. -/
theorem C10_shrunk_undefined (e : FileEnv) (lum : Nat) (ho : e.openOk = true) (hst : e.statOk = true)
    (hsz : (e.content.length : Int) < e.size) (h : ∀ ev ∈ e.sched, ev ≠ ReadEv.error) : imageFromFile e lum = .ub := by
  unfold imageFromFile
  rw [C10_shrunk_file e ho hst hsz h, Res.ok_bind]
  have : (e.content.map some ++ List.replicate (e.size.toNat - e.content.length) none).mapM (id : Option UInt8 → Option UInt8) = none := by
    obtain ⟨n, hn⟩ : ∃ n, e.size.toNat - e.content.length = n + 1 := ⟨e.size.toNat - e.content.length - 1, by omega⟩
    rw [hn, List.replicate_succ]
    induction e.content with
    | nil => rfl
    | cons a l ih => rw [List.map_cons, List.cons_append, List.mapM_cons, ih]; rfl
  unfold initialised
  rw [this]
  rfl

example : imageFromFile ⟨true, true, 21, p6File, []⟩ 200 = .ub := by decide +kernel

example : imageFromFile ⟨true, true, 20, p6File, [.some 3, .some 0, .some 7]⟩ 200 =
    .ok ⟨⟨2, 1⟩, [some chDash, some chX]⟩ := by decide +kernel
example : imageFromFile ⟨true, true, 20, p6File, [.some 3, .error]⟩ 200 = .throw := by decide

/-- **C11.** For any file, raising the threshold only turns letters into background: a cell that is a
letter at the higher threshold `b` is a letter at the lower one `a`. -/
theorem C11_monotone (buf : List UInt8) (a b : Nat) (hab : a ≤ b) (ra rb : RawImage)
    (ha : imageFromBytes buf a = .ok ra) (hb : imageFromBytes buf b = .ok rb) (k : Nat)
    (hk : rb.cells[k]? = some (some chX)) : ra.cells[k]? = some (some chX) := by
  unfold imageFromBytes at ha hb
  cases hp : parseHeader buf with
  | none => rw [hp] at ha; simp at ha
  | some hd =>
    rw [hp] at ha hb
    simp only at ha hb
    by_cases h0 : hd.width * hd.height = 0
    · rw [if_pos h0] at ha; simp at ha
    rw [if_neg h0] at ha hb
    by_cases hs : hd.width * hd.height ≥ W32
    · rw [if_pos hs] at ha; simp at ha
    rw [if_neg hs] at ha hb
    by_cases h54 : hd.type = 54
    · rw [if_pos h54] at ha hb
      by_cases hl : hd.rest.length ≠ hd.width * hd.height * 3
      · rw [if_pos hl] at ha; simp at ha
      rw [if_neg hl] at ha hb
      simp only [ne_eq, Decidable.not_not] at hl
      rw [decodeP6_ok a _ _ _ hl (by simp)] at ha
      rw [decodeP6_ok b _ _ _ hl (by simp)] at hb
      simp only [Res.ok_bind, Res.pure_eq, List.nil_append, Res.ok.injEq] at ha hb
      rw [← ha]
      rw [← hb] at hk
      rw [cells_full (by simp)] at hk ⊢
      simp only [List.map_map, List.getElem?_map] at hk ⊢
      cases hr : (List.range (hd.width * hd.height))[k]? with
      | none => rw [hr] at hk; simp at hk
      | some j =>
        rw [hr] at hk
        simp only [Option.map_some, Function.comp, Option.some.injEq, p6Pixel] at hk ⊢
        split at hk
        · exact absurd hk (by decide)
        · rw [if_neg (by omega)]
    · rw [if_neg h54] at ha hb
      rw [ha] at hb
      obtain rfl := Res.ok.inj hb
      exact hk

example : imageFromBytes p6File 100 = .ok ⟨⟨2, 1⟩, [some chX, some chX]⟩ ∧
    imageFromBytes p6File 200 = .ok ⟨⟨2, 1⟩, [some chDash, some chX]⟩ := by decide +kernel

end Ppocr.Props

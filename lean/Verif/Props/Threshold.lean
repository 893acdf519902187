import Verif.Spec.Threshold
import Verif.Props.Drawing

/-! # C123: only the side of the threshold counts -/

namespace Ppocr.Props

open Ppocr Spec

/-- **C123**: a colour file is read as the picture of the places that reach the luminance. -/
theorem C123_read {buf : List UInt8} {w h : Nat} {data : List UInt8} (hs : Scan buf w h data) (lum : Nat) :
    Loaded buf lum (whiteOn w h fun x y => decide (lum ≤ brightAt data w x y)) := by
  obtain ⟨img, h1, wf, hb, hp⟩ := (C06_p6 buf lum w h data hs.file hs.pos hs.small).1 hs.whole
  rw [← whiteOn_eq wf hb ?_]
  · exact h1
  intro x y hx hy
  have hin : y * w + x < w * h := by
    have : (y + 1) * w ≤ h * w := Nat.mul_le_mul_right _ hy
    rw [Nat.succ_mul] at this
    rw [Nat.mul_comm w h]
    omega
  have hg : ∀ c, c < 3 → data[3 * (y * w + x) + c]? = some (colourAt data w x y c) := by
    intro c hc
    have hlt : 3 * (y * w + x) + c < data.length := by rw [hs.whole]; omega
    unfold colourAt
    rw [List.getD_eq_getElem?_getD, List.getElem?_eq_getElem hlt, Option.getD_some]
  rw [hp x y _ _ _ hx hy (hg 0 (by omega)) (hg 1 (by omega)) (hg 2 (by omega))]
  have hd : decide (lum ≤ brightAt data w x y) = true ↔
      ¬ brightness (colourAt data w x y 0) (colourAt data w x y 1) (colourAt data w x y 2) < lum := by
    rw [decide_eq_true_eq, Nat.not_lt]
    rfl
  by_cases hc : brightness (colourAt data w x y 0) (colourAt data w x y 1) (colourAt data w x y 2) < lum
  · rw [if_pos hc, if_neg (fun a => hd.1 a hc)]
  · rw [if_neg hc, if_pos (hd.2 hc)]

theorem whiteOn_congr {w h : Nat} {a b : Nat → Nat → Bool} (hab : ∀ x y, x < w → y < h → a x y = b x y) :
    whiteOn w h a = whiteOn w h b := by
  unfold whiteOn
  rw [List.flatMap_def, List.flatMap_def]
  congr 2
  refine List.map_congr_left fun y hy => List.map_congr_left fun x hx => ?_
  rw [hab x y (List.mem_range.1 hx) (List.mem_range.1 hy)]

theorem pix_whiteOn {w h x y : Nat} (white : Nat → Nat → Bool) (hx : x < w) (hy : y < h) :
    pix (whiteOn w h white) x y = some (if white x y then chX else chDash) :=
  pix_grid (fun y x => if white x y then chX else chDash) hx hy

theorem loaded_inj {buf buf' : List UInt8} {lum lum' : Nat} {i i' : Image} (h : Loaded buf lum i)
    (h' : Loaded buf' lum' i') (e : imageFromBytes buf lum = imageFromBytes buf' lum') : i = i' := by
  unfold Loaded at h h'
  rw [h, h', Res.ok.injEq, RawImage.mk.injEq] at e
  cases i with
  | mk b d => cases i' with
    | mk b' d' =>
      obtain ⟨rfl, e2⟩ := e
      congr 1
      have := congrArg (List.map (fun o : Option Pixel => o.getD 0)) e2
      simpa [List.map_map, Function.comp_def] using this

/-- **C123**: two colour files are read alike, each with its luminance, if, and only if, they have the same size
and every place reaches the luminance in both or in neither. -/
theorem C123_alike {buf buf' : List UInt8} {w h w' h' : Nat} {data data' : List UInt8} (hs : Scan buf w h data)
    (hs' : Scan buf' w' h' data') (lum lum' : Nat) :
    imageFromBytes buf lum = imageFromBytes buf' lum' ↔ w = w' ∧ h = h' ∧ SameSides lum lum' w h data data' := by
  have a := C123_read hs lum
  have b := C123_read hs' lum'
  constructor
  · intro e
    have hi := loaded_inj a b e
    have hb : (⟨w, h⟩ : Bounds) = ⟨w', h'⟩ := congrArg Image.bounds hi
    injection hb with e1 e2
    subst e1 e2
    refine ⟨rfl, rfl, fun x y hx hy => ?_⟩
    have hpx := congrArg (fun i => pix i x y) hi
    rw [pix_whiteOn _ hx hy, pix_whiteOn _ hx hy, Option.some.injEq] at hpx
    have hne : chX ≠ chDash := by decide
    by_cases h1 : lum ≤ brightAt data w x y <;> by_cases h2 : lum' ≤ brightAt data' w x y <;>
      simp [h1, h2, hne, hne.symm] at hpx ⊢
  · rintro ⟨rfl, rfl, hss⟩
    rw [whiteOn_congr (b := fun x y => decide (lum' ≤ brightAt data' w x y))
      fun x y hx hy => decide_eq_decide.2 (hss x y hx hy)] at a
    unfold Loaded at a b
    rw [a, b]

/-- The brightness changes by at most two more than the colours do. -/
theorem brightness_near {r g b r' g' b' : UInt8} {d : Nat} (hr : r.toNat ≤ r'.toNat + d)
    (hg : g.toNat ≤ g'.toNat + d) (hb : b.toNat ≤ b'.toNat + d) :
    brightness r g b ≤ brightness r' g' b' + d + 2 := by
  unfold brightness
  omega

/-- **C123**: noise of at most `d` in every colour takes no place across the threshold whose brightness is
further than `d + 2` from it. -/
theorem C123_noise {w h d lum : Nat} {data data' : List UInt8} (hn : Noisy d w h data data')
    (hm : ∀ x y, x < w → y < h → lum + d + 2 ≤ brightAt data w x y ∨ brightAt data w x y + d + 2 < lum) :
    SameSides lum lum w h data data' := by
  intro x y hx hy
  have a0 := hn x y 0 hx hy (by omega)
  have a1 := hn x y 1 hx hy (by omega)
  have a2 := hn x y 2 hx hy (by omega)
  have a := brightness_near a0.1 a1.1 a2.1
  have b := brightness_near a0.2 a1.2 a2.2
  have e : brightAt data w x y =
    brightness (colourAt data w x y 0) (colourAt data w x y 1) (colourAt data w x y 2) := rfl
  have e' : brightAt data' w x y =
    brightness (colourAt data' w x y 0) (colourAt data' w x y 1) (colourAt data' w x y 2) := rfl
  have := hm x y hx hy
  omega

/-- **C123**: a grey reaches the luminance of the programs, 128, exactly from the value 128 on; with other
luminances it may be off by one. -/
theorem C123_grey (v : UInt8) :
    (128 ≤ brightness v v v ↔ 128 ≤ v.toNat) ∧ v.toNat ≤ brightness v v v + 1 ∧ brightness v v v ≤ v.toNat + 1 := by
  have := v.toNat_lt
  unfold brightness
  refine ⟨⟨fun h => ?_, fun h => ?_⟩, by omega, by omega⟩
  · by_cases hv : v.toNat ≤ 127
    · have a : (511 * v.toNat + 511) / 1024 ≤ 63 := by omega
      have b : (396 * v.toNat + 511) / 1024 ≤ 49 := by omega
      have c : (117 * v.toNat + 511) / 1024 ≤ 15 := by omega
      omega
    · omega
  · have a : 64 ≤ (511 * v.toNat + 511) / 1024 := by omega
    have b : 49 ≤ (396 * v.toNat + 511) / 1024 := by omega
    have c : 15 ≤ (117 * v.toNat + 511) / 1024 := by omega
    omega

/-- That it may be off by one: greys that are not read as letters though their values reach the luminance, and
the other way round. -/
theorem C123_grey_off : brightness 1 1 1 = 0 ∧ brightness 22 22 22 = 23 := by decide

/-- The margin of two is needed: a change by one of each colour can change the brightness by three. -/
theorem C123_margin : brightness 1 1 4 = 0 ∧ brightness 2 2 5 = 3 := by decide

/-- **C123**: the three programs, `write_glyphs` and `show_glyphs` answer the same on two colour files of the same size
with every place on the same side of the threshold. -/
theorem C123_programs {P : Type} [Dbl P] {Q : Type} [Prob8 Q] (S : StdSort) (mv : List Nat → List Nat) (f : ProgFiles)
    (e : FileEnv) {w h : Nat} {data data' : List UInt8} (hf : Readable f.image) (he : Readable e)
    (hs : Scan f.image.content w h data) (hs' : Scan e.content w h data') :
    (SameSides 128 128 w h data data' →
      program P S { f with image := e } = program P S f ∧ program6 S { f with image := e } = program6 S f ∧
      program8 Q S mv { f with image := e } = program8 Q S mv f) ∧
    ∀ lum lum' text font, SameSides lum lum' w h data data' →
      loadFile lum' ⟨e, text, font⟩ = loadFile lum ⟨f.image, text, font⟩ ∧ showFile lum' e = showFile lum f.image := by
  have key : ∀ lum lum', SameSides lum lum' w h data data' → loadImage e lum' = loadImage f.image lum := by
    intro lum lum' hss
    rw [loadImage_loaded he (C123_read hs' lum'), loadImage_loaded hf (C123_read hs lum)]
    congr 1
    exact whiteOn_congr fun x y hx hy => decide_eq_decide.2 (hss x y hx hy).symm
  refine ⟨fun hss => ?_, fun lum lum' text font hss => ?_⟩
  · have := key 128 128 hss
    refine ⟨?_, ?_, ?_⟩
    · unfold program
      rw [this]
    · unfold program6
      rw [this]
    · unfold program8 tables8
      rw [this]
  · unfold loadFile showFile
    dsimp only
    rw [key lum lum' hss]
    exact ⟨rfl, rfl⟩

/-- `P6\n2 1\n255\n`, a light yellow and a dark green. -/
def tinted : List UInt8 := [80, 54, 10, 50, 32, 49, 10, 50, 53, 53, 10, 250, 240, 100, 3, 90, 7]

theorem tinted_scan : Scan tinted 2 1 [250, 240, 100, 3, 90, 7] :=
  ⟨⟨by decide, by decide, by decide, by decide, [], [50], [49], [50, 53, 53, 10, 250, 240, 100, 3, 90, 7],
    ⟨[], by decide, by decide⟩, ⟨by decide, by decide, by decide⟩, ⟨by decide, by decide, by decide⟩, by decide, by
      rw [if_neg (by decide)]
      exact ⟨[50, 53, 53], 255, by decide, ⟨by decide, by decide, by decide⟩, by decide⟩⟩, by decide, by decide, by decide⟩

/-- It is read as a white and a black place, as the pure ones are; with the luminance 30 both are letters. -/
example : SameSides 128 128 2 1 [250, 240, 100, 3, 90, 7] [255, 255, 255, 0, 0, 0] ∧
    Loaded tinted 128 ⟨⟨2, 1⟩, [120, 45]⟩ ∧ Loaded tinted 30 ⟨⟨2, 1⟩, [120, 120]⟩ := by
  refine ⟨?_, ?_, ?_⟩
  · intro x y hx hy
    obtain rfl : y = 0 := by omega
    rcases x_two hx with rfl | rfl <;> decide
  · unfold Loaded
    decide +kernel
  · unfold Loaded
    decide +kernel

/-- A noisy copy: no colour differs by more than ten, and no place is within twelve of the threshold. -/
example : Noisy 10 2 1 [250, 240, 100, 3, 90, 7] [255, 250, 95, 0, 80, 17] ∧
    SameSides 128 128 2 1 [250, 240, 100, 3, 90, 7] [255, 250, 95, 0, 80, 17] := by
  have h : Noisy 10 2 1 [250, 240, 100, 3, 90, 7] [255, 250, 95, 0, 80, 17] := by
    intro x y c hx hy hc
    obtain rfl : y = 0 := by omega
    have : c = 0 ∨ c = 1 ∨ c = 2 := by omega
    rcases x_two hx with rfl | rfl <;> rcases this with rfl | rfl | rfl <;> decide
  refine ⟨h, C123_noise h fun x y hx hy => ?_⟩
  obtain rfl : y = 0 := by omega
  rcases x_two hx with rfl | rfl <;> decide

end Ppocr.Props

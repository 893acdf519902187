import Verif.Proofs.Command

/-! # The command line tools for images (C73, C74) -/

namespace Ppocr.Props
open Ppocr Spec

/-! ### C73 -/

/-- **C73**, one picture: the frame, the rows, the frame. -/
theorem C73_picture (a : Image) (h : Cut a) (hw : a.bounds.w + 3 < 2 ^ 32) : imageShow a = .ok (framed a) :=
  imageShow_ok hw h.len h.pixels

/-- **C73**, one line: the pictures of its letters from left to right. -/
theorem C73_line (lum : Nat) (e : FileEnv) (as : List Image) (h : Shown lum e as) :
    showFile lum e = ⟨gallery as, .ok ()⟩ ∧ ∀ a ∈ as, Cut a := by
  obtain ⟨i, bs, hl, hsz, hs, hp⟩ := h.ex
  have hc := shown_cut hl hsz hs hp
  refine ⟨?_, fun a ha => (hc a ha).1⟩
  unfold showFile
  rw [hl]
  simp only
  rw [showLoop_ok (i.bounds.w + 1) 0 bs as [] hs hp fun a ha => imageShow_ok (hc a ha).2.1 (hc a ha).1.len (hc a ha).1.pixels]
  rfl

/-- Every image that can be loaded has such pictures, unless it is one row high with a blank end (C13). -/
theorem C73_every_line (lum : Nat) (e : FileEnv) (i : Image) (hi : loadImage e lum = .ok i)
    (hsz : i.bounds.w * i.bounds.h + i.bounds.w ≤ 2 ^ 32) (hrow : 1 < i.bounds.h ∨ ¬ BlankCol i (i.bounds.w - 1)) :
    ∃ as, Shown lum e as := by
  have hpic := loadImage_picture hi
  obtain ⟨bs, es, _, hb, _⟩ := C13_segmentation_partial i hpic.wf hpic.w hpic.h hsz hrow
  obtain ⟨as, hp, _⟩ := pictures_exist hpic.wf bs (by
    intro b hm
    obtain ⟨⟨x0, c⟩, _⟩ := hb b hm
    exact ⟨c.wpos, c.hpos, c.right, c.bottom⟩)
  exact ⟨as, ⟨i, bs, hi, hsz, es, hp⟩⟩

/-- **C73**, several lines, in the order of the command line. A line that cannot be loaded ends the tool with an exception;
what comes before it is shown, what comes behind it is not. -/
theorem C73_lines (lum : Nat) (ls : List (FileEnv × List Image)) (h : ∀ l ∈ ls, Shown lum l.1 l.2) :
    showGlyphs lum (ls.map Prod.fst) = ⟨gallery (ls.flatMap Prod.snd), .ok ()⟩ ∧
    ∀ (e : FileEnv) (es : List FileEnv), loadImage e lum = .throw →
      showGlyphs lum (ls.map Prod.fst ++ e :: es) = ⟨gallery (ls.flatMap Prod.snd), .throw⟩ := by
  induction ls with
  | nil =>
    refine ⟨rfl, fun e es he => ?_⟩
    simp only [List.map_nil, List.nil_append, showGlyphs, showFile, he]
    rfl
  | cons l ls ih =>
    obtain ⟨h1, h2⟩ := ih fun m hm => h m (by simp [hm])
    obtain ⟨hl, _⟩ := C73_line lum l.1 l.2 (h l (by simp))
    have hg : gallery ((l :: ls).flatMap Prod.snd) = gallery l.2 ++ gallery (ls.flatMap Prod.snd) := by
      simp [gallery, List.flatMap_cons]
    constructor
    · simp only [List.map_cons, showGlyphs, hl, h1, hg]
    · intro e es he
      simp only [List.map_cons, List.cons_append, showGlyphs, hl, h2 e es he, hg]

/-- **C73**, what is shown tells the pictures: their number, their sizes and their pixels. -/
theorem C73_read_back (as bs : List Image) (ha : ∀ a ∈ as, Cut a) (hb : ∀ b ∈ bs, Cut b) (h : gallery as = gallery bs) :
    as = bs := gallery_inj as bs ha hb h

/-- **C73**, with the same threshold `show_glyphs` shows the pictures that `write_glyphs` writes. -/
theorem C73_same (lum : Nat) (l : Lesson) (h : l.Holds lum) (hn : l.words.length = l.boxes.length) :
    showFile lum l.job.image = ⟨gallery (l.glyphs.map LGlyph.img), .ok ()⟩ := by
  rw [(C73_line lum l.job.image l.pics ⟨_, _, h.load, h.size, h.seg, h.pics⟩).1]
  congr 2
  obtain ⟨_, hl, _⟩ := line_pics h
  unfold Lesson.glyphs lineGlyphs
  rw [List.map_zipWith]
  apply List.ext_getElem
  · simp; omega
  · intro k h1 h2; simp

/-- **C73**, the tool: without an option, for at least one name. -/
theorem C73_main (D : Disk) (names : List (List Nat)) (pics : List (List Image)) (h0 : names ≠ [])
    (hopt : names.head? ≠ some [45, 108] ∨ names.length < 3) (hlen : pics.length = names.length)
    (h : ∀ (k : Nat) n as, names[k]? = some n → pics[k]? = some as → Shown 128 (D.image n) as) :
    showGlyphsMain D names = ⟨gallery pics.flatten, .ok 0⟩ := by
  have ho := lumOption_plain hopt
  unfold showGlyphsMain
  rw [ho]
  simp only
  have hpos := List.length_pos_iff.2 h0
  rw [if_neg (by omega)]
  have hz := (C73_lines 128 ((names.map D.image).zip pics) (by
    intro l hl
    obtain ⟨k, hk, e⟩ := List.mem_iff_getElem.1 hl
    simp only [List.length_zip, List.length_map] at hk
    have h1 : k < names.length := by omega
    have h2 : k < pics.length := by omega
    rw [List.getElem_zip, List.getElem_map] at e
    rw [← e]
    exact h k _ _ (List.getElem?_eq_getElem h1) (List.getElem?_eq_getElem h2))).1
  rw [List.map_fst_zip (by simp; omega)] at hz
  rw [hz]
  have : List.flatMap Prod.snd ((names.map D.image).zip pics) = pics.flatten := by
    rw [List.flatMap_def, List.map_snd_zip (by simp; omega)]
  rw [this]
  rfl

/-- The line with the block, the bar and the block, and a file that cannot be opened. -/
example : showGlyphs 128 [ppm blockGap, ⟨false, true, 0, [], []⟩] =
    ⟨bytes "::::\n:xx:\n:xx:\n::::\n\n:::\n:x:\n:x:\n:::\n\n::::\n:xx:\n:xx:\n::::\n\n", .throw⟩ := by decide +kernel

example : gallery [block, bar, block] =
    bytes "::::\n:xx:\n:xx:\n::::\n\n:::\n:x:\n:x:\n:::\n\n::::\n:xx:\n:xx:\n::::\n\n" := by decide +kernel

example (as : List Image) (ha : ∀ a ∈ as, Cut a) (h : gallery as = gallery [block, bar, block]) : as = [block, bar, block] :=
  C73_read_back as _ ha (by
    intro b hb
    simp only [List.mem_cons, List.not_mem_nil, or_false] at hb
    rcases hb with rfl | rfl | rfl <;> exact ⟨by decide, by decide, by decide⟩) h

/-! ### C74 -/

/-- **C74**: `-l` with a decimal number uses this number as the threshold; anything else ends the tool with the code 2. -/
def C74_statement : Prop :=
  ∀ (D : Disk) (v a : List Nat) (as : List (List Nat)),
    (∀ n, Numeral v n → showGlyphsMain D (bytes "-l" :: v :: a :: as) = (showGlyphs n ((a :: as).map D.image)).ran) ∧
    ((¬ ∃ n, Numeral v n) → showGlyphsMain D (bytes "-l" :: v :: a :: as) = ⟨[], .ok 2⟩)

theorem dash_l : bytes "-l" = [45, 108] := by decide +kernel

/-- **C74**, exactly: blanks, a sign and digits below 2^64 are accepted; the number is reduced modulo 2^32. -/
theorem C74_exact (D : Disk) (v a : List Nat) (as : List (List Nat)) (k : Int) (h : Amount v k) :
    showGlyphsMain D (bytes "-l" :: v :: a :: as) = (showGlyphs (k % 2 ^ 32).toNat ((a :: as).map D.image)).ran ∧
    ((a :: as).length % 3 = 0 → writeGlyphsMain D (bytes "-l" :: v :: a :: as) =
      (writeGlyphs (k % 2 ^ 32).toNat (jobsOf D (a :: as))).ran) := by
  unfold showGlyphsMain writeGlyphsMain
  rw [dash_l, lumOption_eq, lumOf_some h]
  simp only
  constructor
  · rw [if_neg (by simp)]
  · intro h3
    rw [if_neg]
    simp only [List.length_cons] at *
    omega

/-- **C74**, everything else ends both tools with the code 2 before a file is opened. -/
theorem C74_refused (D : Disk) (v a : List Nat) (as : List (List Nat)) (h : ¬ ∃ k, Amount v k) :
    showGlyphsMain D (bytes "-l" :: v :: a :: as) = ⟨[], .ok 2⟩ ∧
    writeGlyphsMain D (bytes "-l" :: v :: a :: as) = ⟨[], .ok 2⟩ := by
  unfold showGlyphsMain writeGlyphsMain
  rw [dash_l, lumOption_eq, lumOf_none h]
  exact ⟨rfl, rfl⟩

/-- **C74**, partial: for the decimal numbers below 2^32. Missing: greater ones are reduced modulo 2^32 and negative ones are
not refused (`C74_exact`, `C74_wraps`, `C74_negative`). -/
theorem C74_numeral_partial (D : Disk) (v a : List Nat) (as : List (List Nat)) (n : Nat) (h : Numeral v n) (hn : n < 2 ^ 32) :
    showGlyphsMain D (bytes "-l" :: v :: a :: as) = (showGlyphs n ((a :: as).map D.image)).ran ∧
    ((a :: as).length % 3 = 0 → writeGlyphsMain D (bytes "-l" :: v :: a :: as) = (writeGlyphs n (jobsOf D (a :: as))).ran) := by
  have := C74_exact D v a as n ⟨[], [], v, n, rfl, by simp, h, by omega, .inl ⟨rfl, rfl⟩⟩
  have e : ((n : Int) % 2 ^ 32).toNat = n := by omega
  rwa [e] at this

/-- The option is seen only in front, and only with a third argument behind its number; else the threshold is 128 and `-l`
is the name of a file. -/
theorem C74_no_option (D : Disk) (args : List (List Nat)) (h : args.head? ≠ some (bytes "-l") ∨ args.length < 3) :
    showGlyphsMain D args = (if args = [] then ⟨[], .ok 1⟩ else (showGlyphs 128 (args.map D.image)).ran) ∧
    writeGlyphsMain D args = if args = [] ∨ args.length % 3 ≠ 0 then ⟨[], .ok 1⟩ else (writeGlyphs 128 (jobsOf D args)).ran := by
  rw [dash_l] at h
  have ho := lumOption_plain h
  unfold showGlyphsMain writeGlyphsMain
  rw [ho]
  simp only
  constructor
  · by_cases h0 : args = []
    · rw [if_pos h0, if_pos (by simp [h0])]
    · have := List.length_pos_iff.2 h0
      rw [if_neg h0, if_neg (by omega)]
  · by_cases h0 : args = [] ∨ args.length % 3 ≠ 0
    · rw [if_pos h0, if_pos]
      rcases h0 with h | h
      · left; simp [h]
      · right; exact h
    · have h1 := List.length_pos_iff.2 fun e => h0 (.inl e)
      have h2 : ¬ args.length % 3 ≠ 0 := fun e => h0 (.inr e)
      rw [if_neg h0, if_neg (by omega)]

/-- **C74**, the threshold is for colours: any other file is read the same with every threshold. -/
theorem C74_only_colour (buf : List UInt8) (a b : Nat) (h : ¬ ∃ w h data, PnmFile buf 54 w h data) :
    imageFromBytes buf a = imageFromBytes buf b := by
  unfold imageFromBytes
  cases hp : parseHeader buf with
  | none => rfl
  | some hd =>
    obtain ⟨ty, w, ht, m, data⟩ := hd
    have hf := ((parseHeader_iff buf ty w ht data).1 ⟨m, hp⟩).2
    have hty : ty ≠ 54 := by
      rintro rfl
      exact h ⟨w, ht, data, hf⟩
    simp only
    rw [if_neg hty, if_neg hty]

/-- **C74**, from 256 on every threshold gives the same. -/
theorem C74_above (e : FileEnv) (a b : Nat) (ha : 256 ≤ a) (hb : 256 ≤ b) : loadImage e a = loadImage e b := by
  unfold loadImage imageFromFile imageFromBytes
  simp only [decodeP6_high ha hb]

/-- Four black pixels. -/
def night : Image := ⟨⟨2, 2⟩, [chDash, chDash, chDash, chDash]⟩

/-- Only black on this disk. -/
def darkness : Disk := ⟨fun _ => ppm night, fun _ => none⟩

/-- 4294967296 is 0: black becomes a letter (without its last column, C14), though it is none with any threshold from 1 on. -/
theorem C74_wraps : showGlyphsMain darkness [bytes "-l", bytes "4294967296", bytes "i"] =
      ⟨bytes ":::\n:x:\n:x:\n:::\n\n", .ok 0⟩ ∧
    showGlyphsMain darkness [bytes "-l", bytes "1", bytes "i"] = ⟨[], .ok 0⟩ ∧
    showGlyphsMain darkness [bytes "-l", bytes "4294967295", bytes "i"] = ⟨[], .ok 0⟩ ∧
    (showGlyphs 4294967296 [ppm night]).ran = ⟨[], .ok 0⟩ := by decide +kernel

/-- `-1` is taken, and is 4294967295; so is ` +7`. 2^64 is refused. -/
theorem C74_negative : showGlyphsMain darkness [bytes "-l", bytes "-1", bytes "i"] = ⟨[], .ok 0⟩ ∧
    showGlyphsMain darkness [bytes "-l", bytes " +7", bytes "i"] = ⟨[], .ok 0⟩ ∧
    showGlyphsMain darkness [bytes "-l", bytes "18446744073709551616", bytes "i"] = ⟨[], .ok 2⟩ ∧
    showGlyphsMain darkness [bytes "-l", bytes "7 ", bytes "i"] = ⟨[], .ok 2⟩ ∧
    showGlyphsMain darkness [bytes "-l", bytes "", bytes "i"] = ⟨[], .ok 2⟩ := by decide +kernel

theorem C74_false : ¬ C74_statement := by
  intro h
  have h1 := (h darkness (bytes "4294967296") (bytes "i") []).1 4294967296 (by
    refine ⟨by decide +kernel, ?_, by decide +kernel⟩
    unfold Digit
    decide +kernel)
  rw [C74_wraps.1] at h1
  have h2 : (showGlyphs 4294967296 ([bytes "i"].map darkness.image)).ran = ⟨[], .ok 0⟩ := C74_wraps.2.2.2
  rw [h2] at h1
  revert h1
  decide +kernel

end Ppocr.Props

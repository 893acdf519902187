import Verif.Proofs.BoxTool
import Verif.Props.Command

/-! # The tool `box` (C80) -/

namespace Ppocr.Props
open Ppocr Spec

/-! ### What is shown of an image -/

/-- **C80**, one image: its name, then its letters with their places. -/
theorem C80_image (lum : Nat) (name : List Nat) (e : FileEnv) (i : Image) (l : List (Box × Image))
    (hi : loadImage e lum = .ok i) (h : Letters i l) :
    boxFile lum name e = ⟨name ++ [58, 10] ++ listing l, .ok ()⟩ := by
  unfold boxFile
  rw [hi]
  exact boxLoop_ok _ 0 l _ h.boxes h.pics fun p hp => (letters_cut hi h p hp).2

/-- Every image that can be loaded has such letters, unless it is one row high with a blank end (C13). -/
theorem C80_every_image (lum : Nat) (e : FileEnv) (i : Image) (hi : loadImage e lum = .ok i)
    (hsz : i.bounds.w * i.bounds.h + i.bounds.w ≤ 2 ^ 32) (hrow : 1 < i.bounds.h ∨ ¬ BlankCol i (i.bounds.w - 1)) :
    ∃ l, Letters i l := by
  have hpic := loadImage_picture hi
  obtain ⟨bs, es, _, hb, _⟩ := C13_segmentation_partial i hpic.wf hpic.w hpic.h hsz hrow
  obtain ⟨as, hp, _⟩ := pictures_exist hpic.wf bs (by
    intro b hm
    obtain ⟨⟨x0, c⟩, _⟩ := hb b hm
    exact ⟨c.wpos, c.hpos, c.right, c.bottom⟩)
  have hlen : ∀ (bs : List Box) (as : List Image), Pictures i bs as → bs.length = as.length := by
    intro bs
    induction bs with
    | nil => intro as h; cases as with
      | nil => rfl
      | cons a as => exact absurd h (by simp [Pictures])
    | cons b bs ih => intro as h; cases as with
      | nil => exact absurd h (by simp [Pictures])
      | cons a as => simp only [List.length_cons, ih as h.2]
  have hl := hlen bs as hp
  refine ⟨bs.zip as, hsz, ?_, ?_⟩
  · rw [List.map_fst_zip (by omega)]
    exact es
  · rw [List.map_fst_zip (by omega), List.map_snd_zip (by omega)]
    exact hp

/-- **C80**, the pictures laid at their places give back the image: nothing is drawn that is not there, and all letter pixels
in front of the last column are drawn. -/
theorem C80_redraw (i : Image) (wf : i.WF) (hh : 0 < i.bounds.h) (hw : 0 < i.bounds.w) (l : List (Box × Image))
    (h : Letters i l) (x y : Nat) :
    (Drawn l x y → letter i x y = true) ∧ (x + 1 < i.bounds.w → (Drawn l x y ↔ letter i x y = true)) := by
  have hbox : ∀ b ∈ l.map Prod.fst, ∃ x0, CharBox i x0 b := by
    rcases segmentFrom_ok wf hh h.size (i.bounds.w + 1) 0 hw (by omega) (by omega) with
      ⟨bs', h1, _, _, h4, _⟩ | ⟨h1, _⟩
    · have hb := h.boxes
      unfold segment at hb
      rw [h1] at hb
      cases hb
      intro b hb
      exact (h4 b hb).2.1
    · have hb := h.boxes
      unfold segment at hb
      rw [h1] at hb
      cases hb
  have key : ∀ p ∈ l, ∀ c r, c < p.1.w → r < p.1.h → letter p.2 c r = letter i (p.1.x + c) (p.1.y + r) := by
    intro p hp c r hc hr
    obtain ⟨x0, cb⟩ := hbox p.1 (List.mem_map_of_mem hp)
    have := cb.right
    have := cb.bottom
    have := cb.wpos
    have := cb.hpos
    obtain ⟨s, es, _, _, hpx⟩ := C01_section i wf p.1.x p.1.y p.1.bounds (by omega) (by omega) (by show _ + p.1.w ≤ _; omega)
      (by show _ + p.1.h ≤ _; omega)
    rw [pictures_mem h.pics hp] at es
    cases es
    unfold letter
    rw [hpx c r hc hr]
  have small : ∀ p ∈ l, ∀ c r, letter p.2 c r = true → c < p.1.w ∧ r < p.1.h := by
    intro p hp c r hl
    obtain ⟨x0, cb⟩ := hbox p.1 (List.mem_map_of_mem hp)
    have := cb.right
    have := cb.bottom
    have := cb.wpos
    have := cb.hpos
    obtain ⟨s, es, _, hb, _⟩ := C01_section i wf p.1.x p.1.y p.1.bounds (by omega) (by omega) (by show _ + p.1.w ≤ _; omega)
      (by show _ + p.1.h ≤ _; omega)
    rw [pictures_mem h.pics hp] at es
    cases es
    unfold letter pix at hl
    by_cases hc : c < p.2.bounds.w ∧ r < p.2.bounds.h
    · rw [hb] at hc
      exact hc
    · rw [if_neg hc] at hl
      cases hl
  have fwd : Drawn l x y → letter i x y = true := by
    rintro ⟨p, hp, h1, h2, hl⟩
    obtain ⟨h3, h4⟩ := small p hp _ _ hl
    rw [key p hp _ _ h3 h4] at hl
    rw [← hl]
    congr 1 <;> omega
  refine ⟨fwd, fun hx => ⟨fwd, fun hl => ?_⟩⟩
  obtain ⟨b, hb, hin, _⟩ := C14_coverage_partial i wf hh h.size _ h.boxes x y hx hl
  obtain ⟨p, hp, rfl⟩ := List.mem_map.1 hb
  obtain ⟨i1, i2, i3, i4⟩ := hin
  refine ⟨p, hp, i1, i3, ?_⟩
  rw [key p hp _ _ (by omega) (by omega), ← hl]
  congr 1 <;> omega

/-- **C80**, the output tells the letters: their number, places, sizes and pixels. -/
theorem C80_read_back (l m : List (Box × Image)) (hl : ∀ p ∈ l, Cut p.2) (hm : ∀ p ∈ m, Cut p.2) (h : listing l = listing m) :
    l = m := listing_inj l m hl hm h

/-- **C80**, two images for which `box` prints the same have the same letter pixels in front of their last columns. -/
theorem C80_same_output (lum lum' : Nat) (name : List Nat) (e e' : FileEnv) (i i' : Image) (l l' : List (Box × Image))
    (hi : loadImage e lum = .ok i) (hi' : loadImage e' lum' = .ok i') (h : Letters i l) (h' : Letters i' l')
    (ho : (boxFile lum name e).out = (boxFile lum' name e').out) (x y : Nat) (hx : x + 1 < i.bounds.w) (hx' : x + 1 < i'.bounds.w) :
    letter i x y = letter i' x y := by
  rw [C80_image lum name e i l hi h, C80_image lum' name e' i' l' hi' h'] at ho
  have hl : l = l' := C80_read_back l l' (fun p hp => (letters_cut hi h p hp).1) (fun p hp => (letters_cut hi' h' p hp).1)
    (List.append_cancel_left ho)
  subst hl
  have hp := loadImage_picture hi
  have hp' := loadImage_picture hi'
  have k := (C80_redraw i hp.wf hp.h hp.w l h x y).2 hx
  have k' := (C80_redraw i' hp'.wf hp'.h hp'.w l h' x y).2 hx'
  rw [Bool.eq_iff_iff, ← k, ← k']

/-! ### The command line -/

/-- What is printed for several files: each name, then its letters. -/
def boxPages (ns : List (List Nat)) (ls : List (List (Box × Image))) : List Nat :=
  (ns.zip ls).flatMap fun p => p.1 ++ [58, 10] ++ listing p.2

/-- The names and what they hold. -/
def OnDisk (D : Disk) (lum : Nat) (ns : List (List Nat)) (ls : List (List (Box × Image))) : Prop :=
  ls.length = ns.length ∧ ∀ p ∈ ns.zip ls, ∃ i, loadImage (D.image p.1) lum = .ok i ∧ Letters i p.2

theorem boxFiles_ok (D : Disk) (lum : Nat) : ∀ (ns : List (List Nat)) (ls : List (List (Box × Image))), OnDisk D lum ns ls →
    boxFiles D lum ns = ⟨boxPages ns ls, .ok ()⟩
  | [], [], _ => rfl
  | [], _ :: _, h => by cases h.1
  | _ :: _, [], h => by cases h.1
  | n :: ns, l :: ls, h => by
    obtain ⟨i, hi, hl⟩ := h.2 (n, l) (by simp)
    have ih := boxFiles_ok D lum ns ls ⟨by simpa using h.1, fun p hp => h.2 p (by simp [hp])⟩
    unfold boxFiles
    rw [C80_image lum n (D.image n) i l hi hl, ih]
    simp only [boxPages, List.zip_cons_cons, List.flatMap_cons]

theorem boxMain_plain (D : Disk) {n : List Nat} (h : n ≠ [45, 108]) (ns : List (List Nat)) :
    boxMain D (n :: ns) = boxNames D 128 (n :: ns) := by
  simp only [boxMain]
  rw [if_neg h]

theorem boxMain_option (D : Disk) (v : List Nat) (ns : List (List Nat)) :
    boxMain D ([45, 108] :: v :: ns) =
      if (strtoul v).rest = v ∨ (strtoul v).rest ≠ [] ∨ (strtoul v).error = true then
        ⟨bytes " ## luminance: " ++ showNat ((strtoul v).value % W32) ++ [10], .ok 2⟩
      else ⟨bytes " ## luminance: " ++ showNat ((strtoul v).value % W32) ++ [10] ++
        (boxNames D ((strtoul v).value % W32) ns).out, (boxNames D ((strtoul v).value % W32) ns).code⟩ := by
  rw [show bytes " ## luminance: " = [32, 35, 35, 32, 108, 117, 109, 105, 110, 97, 110, 99, 101, 58, 32] by decide +kernel]
  simp only [boxMain]
  rw [if_pos trivial]

/-- **C80**, the tool without the option. -/
theorem C80_plain (D : Disk) (ns : List (List Nat)) (ls : List (List (Box × Image))) (h0 : ns ≠ [])
    (ho : ns.head? ≠ some (bytes "-l")) (h : OnDisk D 128 ns ls) : boxMain D ns = ⟨boxPages ns ls, .ok 0⟩ := by
  rw [dash_l] at ho
  cases ns with
  | nil => exact absurd rfl h0
  | cons n ns =>
    rw [boxMain_plain D (by rintro rfl; exact ho rfl)]
    unfold boxNames
    rw [if_neg (by simp), boxFiles_ok D 128 _ _ h]
    rfl

/-- **C80**, the tool with the option: what is accepted is as for the other tools (C74), and the threshold is shown. -/
theorem C80_option (D : Disk) (v : List Nat) (k : Int) (hk : Amount v k) (ns : List (List Nat)) (ls : List (List (Box × Image)))
    (h0 : ns ≠ []) (h : OnDisk D (k % 2 ^ 32).toNat ns ls) :
    boxMain D (bytes "-l" :: v :: ns) =
      ⟨bytes " ## luminance: " ++ showNat (k % 2 ^ 32).toNat ++ [10] ++ boxPages ns ls, .ok 0⟩ := by
  have e := lumOf_some hk
  unfold lumOf at e
  split at e
  · cases e
  · rename_i hn
    rw [Option.some.injEq] at e
    rw [dash_l, boxMain_option, if_neg hn, e]
    have := List.length_pos_iff.2 h0
    unfold boxNames
    rw [if_neg (by omega), boxFiles_ok D _ _ _ h]
    rfl

/-- Anything else behind `-l`: the value so far is shown and the code is 2. -/
theorem C80_refused (D : Disk) (v : List Nat) (hk : ¬ ∃ k, Amount v k) (ns : List (List Nat)) :
    ∃ t, boxMain D (bytes "-l" :: v :: ns) = ⟨bytes " ## luminance: " ++ showNat t ++ [10], .ok 2⟩ := by
  have e := lumOf_none hk
  unfold lumOf at e
  split at e
  · rename_i hn
    refine ⟨(strtoul v).value % W32, ?_⟩
    rw [dash_l, boxMain_option, if_pos hn]
  · cases e

/-- Full statement of **C80**, the command line: with any arguments the tool ends properly if all images are. -/
def C80_statement : Prop :=
  ∀ (D : Disk) (args : List (List Nat)), (∀ lum n, ∃ i l, loadImage (D.image n) lum = .ok i ∧ Letters i l) →
    ∃ c, (boxMain D args).code = .ok c

theorem boxNames_code (D : Disk) (lum : Nat) (h : ∀ n, ∃ i l, loadImage (D.image n) lum = .ok i ∧ Letters i l)
    (ns : List (List Nat)) : ∃ c, (boxNames D lum ns).code = .ok c := by
  unfold boxNames
  split
  · exact ⟨1, rfl⟩
  · rename_i hn
    have : ∃ ls, OnDisk D lum ns ls := by
      clear hn
      induction ns with
      | nil => exact ⟨[], rfl, by simp⟩
      | cons n ns ih =>
        obtain ⟨ls, h1, h2⟩ := ih
        obtain ⟨i, l, e1, e2⟩ := h n
        refine ⟨l :: ls, by simp [h1], ?_⟩
        intro p hp
        rw [List.zip_cons_cons] at hp
        rcases List.mem_cons.1 hp with rfl | hp
        · exact ⟨i, e1, e2⟩
        · exact h2 p hp
    obtain ⟨ls, hl⟩ := this
    rw [boxFiles_ok D lum ns ls hl]
    exact ⟨0, rfl⟩

/-- **C80**, partial: with any arguments but `-l` alone. -/
theorem C80_ends_partial (D : Disk) (args : List (List Nat))
    (h : ∀ lum n, ∃ i l, loadImage (D.image n) lum = .ok i ∧ Letters i l) (ha : args ≠ [bytes "-l"]) :
    ∃ c, (boxMain D args).code = .ok c := by
  rw [dash_l] at ha
  cases args with
  | nil => exact boxNames_code D 128 (h 128) []
  | cons o as =>
    by_cases ho : o = [45, 108]
    · subst ho
      cases as with
      | nil => exact absurd rfl ha
      | cons v as =>
        rw [boxMain_option]
        split
        · exact ⟨2, rfl⟩
        · exact boxNames_code D _ (h _) as
    · rw [boxMain_plain D ho]
      exact boxNames_code D 128 (h 128) _

/-- `box -l` gives `std::strtoul` a null pointer, whatever is on the disk. -/
theorem C80_no_value (D : Disk) : boxMain D [bytes "-l"] = ⟨[], .ub⟩ := by
  rw [dash_l]
  rfl

/-- A bitmap of 8 columns and 2 rows, all set but the second column. -/
def bitMap : FileEnv := ⟨true, true, 9, [80, 52, 10, 56, 32, 50, 10, 64, 64], []⟩

theorem bitMap_load (lum : Nat) : loadImage bitMap lum =
    .ok ⟨⟨8, 2⟩, [120, 45, 120, 120, 120, 120, 120, 120, 120, 45, 120, 120, 120, 120, 120, 120]⟩ := by
  unfold loadImage imageFromFile
  rw [show readAll bitMap = .ok ([80, 52, 10, 56, 32, 50, 10, 64, 64].map some) by decide +kernel, Res.ok_bind,
    show initialised ([80, 52, 10, 56, 32, 50, 10, 64, 64].map some) = .ok [80, 52, 10, 56, 32, 50, 10, 64, 64] by decide +kernel,
    Res.ok_bind]
  unfold imageFromBytes
  rw [show parseHeader [80, 52, 10, 56, 32, 50, 10, 64, 64] = some ⟨52, 8, 2, 0, [64, 64]⟩ by decide +kernel]
  simp only
  rw [if_neg (by decide), if_neg (by decide), if_neg (by decide)]
  decide +kernel

theorem C80_false : ¬ C80_statement := by
  intro h
  obtain ⟨c, hc⟩ := h ⟨fun _ => bitMap, fun _ => none⟩ [bytes "-l"] (by
    intro lum n
    obtain ⟨l, hl⟩ := C80_every_image lum bitMap _ (bitMap_load lum) (by decide) (.inl (by decide))
    exact ⟨_, l, bitMap_load lum, hl⟩)
  rw [C80_no_value] at hc
  cases hc

/-- All files hold the line with the block, the bar and the block. -/
def blocks : Disk := ⟨fun _ => ppm blockGap, fun _ => none⟩

/-- With a threshold, two times the same file. -/
example : boxMain blocks [bytes "-l", bytes "200", bytes "a", bytes "b c"] =
    ⟨bytes (" ## luminance: 200\n" ++
      "a:\n\nbox(0 0 2 2)\n::::\n:xx:\n:xx:\n::::\n\nbox(3 0 1 2)\n:::\n:x:\n:x:\n:::\n\nbox(9 0 2 2)\n::::\n:xx:\n:xx:\n::::\n" ++
      "b c:\n\nbox(0 0 2 2)\n::::\n:xx:\n:xx:\n::::\n\nbox(3 0 1 2)\n:::\n:x:\n:x:\n:::\n\nbox(9 0 2 2)\n::::\n:xx:\n:xx:\n::::\n"),
      .ok 0⟩ := by decide +kernel

theorem blockGap_letters : Letters blockGap [(⟨0, 0, 2, 2⟩, block), (⟨3, 0, 1, 2⟩, bar), (⟨9, 0, 2, 2⟩, block)] :=
  ⟨by decide, by decide +kernel, by decide, by decide, by decide, trivial⟩

example : Drawn [(⟨0, 0, 2, 2⟩, block), (⟨3, 0, 1, 2⟩, bar), (⟨9, 0, 2, 2⟩, block)] 10 1 ∧
    ¬ Drawn [(⟨0, 0, 2, 2⟩, block), (⟨3, 0, 1, 2⟩, bar), (⟨9, 0, 2, 2⟩, block)] 8 1 := by
  have wf : blockGap.WF := (loadImage_picture (e := ppm blockGap) (lum := 128) (by decide +kernel)).wf
  rw [(C80_redraw blockGap wf (by decide) (by decide) _ blockGap_letters 10 1).2 (by decide),
    (C80_redraw blockGap wf (by decide) (by decide) _ blockGap_letters 8 1).2 (by decide)]
  decide

/-- A number that is none: shown as far as it goes. -/
example : boxMain blocks [bytes "-l", bytes "12x", bytes "a"] = ⟨bytes " ## luminance: 12\n", .ok 2⟩ ∧
    boxMain blocks [bytes "-l", bytes "12"] = ⟨bytes " ## luminance: 12\n", .ok 1⟩ ∧
    boxMain blocks [] = ⟨[], .ok 1⟩ := by decide +kernel

end Ppocr.Props

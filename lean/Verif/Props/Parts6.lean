import Verif.Proofs.Parts6
import Verif.Props.Letter8
import Verif.Props.Alike6

/-! # What `extract_text6` and `extract_text8` print of a line and of its parts (C103) -/

namespace Ppocr.Props
open Ppocr Spec

theorem glyphWords_ne {g : LGlyph} (h : g.views ≠ []) : ∃ w, w ∈ glyphWords g := by
  cases hv : g.views with
  | nil => exact absurd hv h
  | cons v vs => exact ⟨v.word, by unfold glyphWords; rw [hv]; simp⟩

/-- `c` is read as `a` and `b` are: one word for each letter of `a`, then one for each of `b`, in both results, and, if there is
a space at the cut and no letter that `known` is not true of stands in both parts, the text of `c` is that of `a` and that of `b`
with the space between. Otherwise `c` divides by zero and `a` or `b` does, too. -/
def ReadInParts (known : Image → Prop) (a b c : Image) (ra rb rc : Res Answer6) : Prop :=
  (∃ oa ob oc, ra = .ok oa ∧ rb = .ok ob ∧ rc = .ok oc ∧ oc.res1 = oa.res1 ++ ob.res1 ∧ oc.res2 = oa.res2 ++ ob.res2 ∧
    ∀ as cs ps qs bs, segment a = .ok as → segment b = .ok bs → segment c = .ok cs → Gap cs as.length → Pictures a as ps →
      Pictures b bs qs → (∀ p ∈ ps, p ∈ qs → known p) → TextParts oa.res3 ob.res3 oc.res3) ∨
  (rc = .ub ∧ (ra = .ub ∨ rb = .ub))

/-- **C103** for `extract_text6`: a line whose picture is cut behind a blank column is read as its parts are. -/
theorem C103_program6 (S S' : StdSort) (f : ProgFiles) (gs : List LGlyph) (d : Datas) (dict : List (List Nat)) (E : List FNode)
    (tg : List Nat) (ea eb ec : FileEnv) (a b c : Image) (hg : ∀ g ∈ gs, g.Good) (hv : ∀ g ∈ gs, g.views ≠ [])
    (hs : ∀ g ∈ gs, Sized g.img) (hw : ∀ g ∈ gs, ∀ w ∈ glyphWords g, Spelled w) (hlt : gs.length + 63 < W32)
    (hd : Datas.empty.loadAll (gs.map LGlyph.img) = .ok d) (ht : glyphsWrite gs = .ok tg) (hfg : f.glyphs = some tg)
    (hfd : f.datas = some (datasWrite d)) (hE : loadDict f.dict = .ok E) (hdict : DictOf S' dict E)
    (h : CutFiles 128 ea eb ec a b c) (hc : LineImage c) :
    ReadInParts (fun p => ∃ k < gs.length, Chosen6 (gs.map LGlyph.img) (gs.map glyphWords) p k) a b c
      (program6 S { f with image := ea }) (program6 S { f with image := eb }) (program6 S { f with image := ec }) := by
  obtain ⟨t, hprog, hlet⟩ := program6_letters S f gs d tg hg hv hs hlt hd ht hfg hfd
  rw [show _ = _ from hprog ea f.dict a E h.first hE, show _ = _ from hprog eb f.dict b E h.second hE, show _ = _ from hprog ec f.dict c E h.whole hE]
  refine extract6_cut (Rd := Reads6 (gs.map LGlyph.img) (gs.map glyphWords)) (Jm := Jam6 (gs.map LGlyph.img) (gs.map glyphWords))
    ⟨fun _ _ => reads_head, hlet, ?_, fun _ _ hr hn => (hr.read hn).1, fun _ _ hr hn => (hr.unread hn).1, ?_⟩ hdict h hc
  · intro p o hr w hwm
    obtain ⟨g, v, _, hgv, hwv⟩ := (hr.words w).1 hwm
    rw [List.getElem?_map] at hgv
    obtain ⟨gl, hgl, rfl⟩ := Option.map_eq_some_iff.1 hgv
    exact hw gl (List.mem_of_getElem? hgl) w hwv
  · rintro p o hr ⟨k, hk, hch⟩ hn
    obtain ⟨w, hwm⟩ := glyphWords_ne (hv gs[k] (by simp))
    have := (hr.words w).2 ⟨k, glyphWords gs[k], hch, by simp [List.getElem?_eq_getElem hk], hwm⟩
    rw [hn] at this
    cases this

/-- **C103** for `extract_text8`, with glyphs of the same features (see C93). -/
theorem C103_program8 (P : Type) [LawfulProb8 P] (S S' : StdSort) (mv : List Nat → List Nat) (f : ProgFiles) (gs : List LGlyph)
    (d : Datas) (dict : List (List Nat)) (E : List FNode)
    (tg : List Nat) (ea eb ec : FileEnv) (a b c : Image) (hg : ∀ g ∈ gs, g.Good) (hv : ∀ g ∈ gs, g.views ≠ [])
    (hs : ∀ g ∈ gs, Sized g.img) (hw : ∀ g ∈ gs, ∀ w ∈ glyphWords g, Spelled w) (hlt : gs.length < W32)
    (hd : Datas.empty.loadAll (gs.map LGlyph.img) = .ok d) (ht : glyphsWrite gs = .ok tg) (hfg : f.glyphs = some tg)
    (hfd : f.datas = some (datasWrite d)) (hE : loadDict f.dict = .ok E) (hdict : DictOf S' dict E)
    (hall : ∀ i j, i < gs.length → j < gs.length → row d.tables i = row d.tables j)
    (h : CutFiles 128 ea eb ec a b c) (hc : LineImage c) :
    ReadInParts (fun p => ∃ k < gs.length, Chosen8 P (gs.map LGlyph.img) (gs.map glyphWords) p k) a b c
      (program8 P S mv { f with image := ea }) (program8 P S mv { f with image := eb }) (program8 P S mv { f with image := ec }) := by
  obtain ⟨t, hprog, hlet⟩ := program8_letters P S mv f gs d tg hg hv hs hlt hd ht hfg hfd hall
  rw [show _ = _ from hprog ea f.dict a E h.first hE, show _ = _ from hprog eb f.dict b E h.second hE, show _ = _ from hprog ec f.dict c E h.whole hE]
  refine extract6_cut (Rd := Reads8 P (gs.map LGlyph.img) (gs.map glyphWords)) (Jm := Jam8 (gs.map LGlyph.img) (gs.map glyphWords))
    ⟨fun _ _ => reads8_head, hlet, ?_, fun _ _ hr hn => (hr.read hn).1, fun _ _ hr hn => (hr.unread hn).1, ?_⟩ hdict h hc
  · intro p o hr w hwm
    obtain ⟨g, v, _, hgv, hwv⟩ := (hr.words w).1 hwm
    rw [List.getElem?_map] at hgv
    obtain ⟨gl, hgl, rfl⟩ := Option.map_eq_some_iff.1 hgv
    exact hw gl (List.mem_of_getElem? hgl) w hwv
  · rintro p o hr ⟨k, hk, hch⟩ hn
    obtain ⟨w, hwm⟩ := glyphWords_ne (hv gs[k] (by simp))
    have := (hr.words w).2 ⟨k, glyphWords gs[k], hch, by simp [List.getElem?_eq_getElem hk], hwm⟩
    rw [hn] at this
    cases this

/-! ### Examples -/

/-- The first two letters of `blockLine`, and the rest. -/
def blockFront : Image := ⟨⟨10, 3⟩, let r := [120, 120, 120, 45, 120, 120, 120, 45, 45, 45]; r ++ r ++ r⟩

def blockBack : Image := ⟨⟨8, 3⟩, let r := [45, 45, 120, 120, 45, 120, 120, 45]; r ++ r ++ List.replicate 8 45⟩

theorem blockLine_cut : CutUp blockFront blockBack blockLine :=
  ⟨⟨part_of (by decide) (by decide) (by decide +kernel), part_of (by decide) (by decide) (by decide +kernel), by decide⟩,
    blank_of (by decide +kernel), by decide, by decide⟩

example : program6 insertionSort (blockFiles (ppm blockFront)) = .ok ⟨bytes "a a ", bytes "a a ", bytes "aa"⟩ ∧
    program6 insertionSort (blockFiles (ppm blockBack)) = .ok ⟨bytes "é é ", bytes "é é ", bytes "éé"⟩ ∧
    program6 insertionSort (blockFiles (ppm blockLine)) = .ok ⟨bytes "a a é é ", bytes "a a é é ", bytes "aa éé"⟩ ∧
    TextParts (bytes "aa") (bytes "éé") (bytes "aa éé") := by
  refine ⟨by decide +kernel, by decide +kernel, by decide +kernel, .inr ⟨[], by simp, by decide +kernel⟩⟩

/-- A block and a column that is not recognised. -/
def oneOdd : Image := ⟨⟨10, 3⟩, let r := [120, 120, 45, 120, 45, 45, 45, 45, 45, 45]; r ++ r ++ [45, 45, 45, 120, 45, 45, 45, 45, 45, 45]⟩

/-- The files for a block that is an `o`. -/
def oddFiles (image : FileEnv) : Res Answer6 := do
  let gs : List LGlyph := [⟨block, [⟨bytes "o", bytes "f", 0⟩]⟩]
  let d ← Datas.empty.loadAll (gs.map LGlyph.img)
  let tg ← glyphsWrite gs
  program6 insertionSort ⟨some tg, some (datasWrite d), image, none, none⟩

/-- The column in both parts is not recognised and was seen before: the text of the line ends in `_`, that of the part in `?`. -/
theorem C103_unknown : CutUp oneOdd oneOdd (besides oneOdd oneOdd) ∧
    oddFiles (ppm oneOdd) = .ok ⟨bytes "o _ ", bytes "o _ ", bytes "o?"⟩ ∧
    oddFiles (ppm (besides oneOdd oneOdd)) = .ok ⟨bytes "o _ o _ ", bytes "o _ o _ ", bytes "o? o_"⟩ ∧
    ¬ TextParts (bytes "o?") (bytes "o?") (bytes "o? o_") := by
  refine ⟨⟨⟨part_of (by decide) (by decide) (by decide +kernel), part_of (by decide) (by decide) (by decide +kernel), by decide⟩,
    blank_of (by decide +kernel), by decide, by decide⟩, by decide +kernel, by decide +kernel, ?_⟩
  have e1 : bytes "o?" = [111, 63] := by decide +kernel
  have e2 : bytes "o? o_" = [111, 63, 32, 111, 95] := by decide +kernel
  rw [e1, e2]
  rintro (⟨h, _⟩ | ⟨sep, _, h⟩)
  · cases h
  · have := congrArg (fun l => l.reverse.head?) h
    simp at this

/-- Two `o`s with a space between, in `extract_text8`. -/
example : (files8 [⟨⟨⟨2, 2⟩, List.replicate 4 120⟩, [⟨bytes "o", bytes "f", 0⟩]⟩] (spread [(0, 2), (5, 2)]) >>= fun f =>
      program8 Ratio8 insertionSort (fun _ => []) f) = .ok ⟨bytes "o o ", bytes "o o ", bytes "o o"⟩ ∧
    (files8 [⟨⟨⟨2, 2⟩, List.replicate 4 120⟩, [⟨bytes "o", bytes "f", 0⟩]⟩] (spread [(0, 2)]) >>= fun f =>
      program8 Ratio8 insertionSort (fun _ => []) f) = .ok ⟨bytes "o ", bytes "o ", bytes "o"⟩ := by
  constructor <;> decide +kernel

end Ppocr.Props

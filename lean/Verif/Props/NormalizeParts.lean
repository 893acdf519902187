import Verif.Proofs.NormalizeParts

/-! # C125: normalising in parts -/

namespace Ppocr.Props
open Ppocr Spec

theorem eachMerged_of {S : StdSort} : ∀ {ps os : List (List LGlyph)}, ps.map (normalizeGlyphs S) = os.map Res.ok → EachMerged S ps os
  | [], [], _ => .nil
  | [], _ :: _, h => by simp at h
  | _ :: _, [], h => by simp at h
  | p :: ps, o :: os, h => by
    simp only [List.map_cons, List.cons.injEq] at h
    exact .cons h.1 (eachMerged_of h.2)

/-- **C125** for any glyphs: merged part by part, and then all together, they are the same pictures in the same order, each with
the same views, as when they are merged at once. -/
theorem C125_any (S S' S'' : StdSort) (ps os : List (List LGlyph)) (he : ps.map (normalizeGlyphs S) = os.map Res.ok)
    (hf : ∀ p ∈ ps, ∀ g ∈ p, g.img.Full) :
    ∃ a b, normalizeGlyphs S' os.flatten = .ok a ∧ normalizeGlyphs S'' ps.flatten = .ok b ∧
      a.map LGlyph.img = b.map LGlyph.img ∧ ∀ g ∈ a, ∀ g' ∈ b, g.img = g'.img → ∀ v, v ∈ g.views ↔ v ∈ g'.views := by
  obtain ⟨a, ea, ma⟩ := (eachMerged_of he).merged (S' := S') hf
  obtain ⟨b, eb, mb, _⟩ := normalizeGlyphs_ok S'' ps.flatten fun g hg => by
    obtain ⟨p, hp, hg⟩ := List.mem_flatten.1 hg
    exact hf p hp g hg
  exact ⟨a, b, ea, eb, C51_unique ma mb⟩

/-- **C125**: glyphs that are merged part by part, and then all together, are the glyphs merged at once, if the views of each
glyph are in order, as one view alone is. The runs may sort in different ways. -/
theorem C125_parts (S S' : StdSort) (ps os : List (List LGlyph)) (he : ps.map (normalizeGlyphs S) = os.map Res.ok)
    (hf : ∀ p ∈ ps, ∀ g ∈ p, g.img.Full) (ho : ∀ p ∈ ps, ∀ g ∈ p, g.views.Pairwise fun a b => viewLt a b = true) :
    normalizeGlyphs S' os.flatten = normalizeGlyphs S' ps.flatten := (eachMerged_of he).whole hf ho

/-- What the program makes of one file of the tools. -/
theorem normalizeMain_one {S : StdSort} {gs : List LGlyph} {t t' : List Nat} (hg : ∀ g ∈ gs, g.Good) (ht : glyphsWrite gs = .ok t)
    (hc : (gs.flatMap LGlyph.views).length ≤ maxU) (h : normalizeMain S [some t] = .ok (0, t')) :
    ∃ out, normalizeGlyphs S gs = .ok out ∧ glyphsWrite out = .ok t' ∧ ∀ g ∈ out, g.Good := by
  obtain ⟨out, eo, hm, hv⟩ := normalizeGlyphs_ok S gs fun g h => (hg g h).img.full
  have hgo := merged_good hm hg fun g h => Nat.le_trans (hv g h) hc
  obtain ⟨t'', et, _⟩ := glyphsWrite_total hgo
  unfold normalizeMain at h
  have := readGlyphFiles_write [gs] [t] [] (by simpa using hg) (by simpa using ht)
  rw [if_neg (by simp)] at h
  rw [List.map_cons, List.map_nil] at this
  rw [this, Res.ok_bind] at h
  simp only [List.nil_append, List.flatten_cons, List.flatten_nil, List.append_nil] at h
  rw [eo, Res.ok_bind, et, Res.ok_bind] at h
  cases h
  exact ⟨out, eo, et, hgo⟩

/-- **C125** for the program: files of the tools that are normalised one by one, and then all together, give byte for byte what
they give when they are normalised at once. -/
theorem C125_files (S S' : StdSort) (ins : List (List LGlyph)) (texts ts : List (List Nat))
    (hg : ∀ gs ∈ ins, ∀ g ∈ gs, g.Good) (ht : ins.map glyphsWrite = texts.map Res.ok)
    (ho : ∀ gs ∈ ins, ∀ g ∈ gs, g.views.Pairwise fun a b => viewLt a b = true)
    (hc : ∀ gs ∈ ins, (gs.flatMap LGlyph.views).length ≤ maxU)
    (h : texts.map (fun t => normalizeMain S [some t]) = ts.map fun t => .ok (0, t)) :
    normalizeMain S' (ts.map some) = normalizeMain S' (texts.map some) := by
  have key : ∀ (ins : List (List LGlyph)) (texts ts : List (List Nat)), (∀ gs ∈ ins, ∀ g ∈ gs, g.Good) →
      ins.map glyphsWrite = texts.map Res.ok → (∀ gs ∈ ins, (gs.flatMap LGlyph.views).length ≤ maxU) →
      texts.map (fun t => normalizeMain S [some t]) = ts.map (fun t => .ok (0, t)) →
      ∃ os : List (List LGlyph), ins.map (normalizeGlyphs S) = os.map Res.ok ∧ os.map glyphsWrite = ts.map Res.ok ∧ ∀ gs ∈ os, ∀ g ∈ gs, g.Good := by
    intro ins
    induction ins with
    | nil =>
      intro texts ts _ ht _ h
      cases texts with
      | cons => simp at ht
      | nil =>
        cases ts with
        | cons => simp at h
        | nil => exact ⟨[], rfl, rfl, by simp⟩
    | cons gs ins ih =>
      intro texts ts hg ht hc h
      cases texts with
      | nil => simp at ht
      | cons t texts =>
        cases ts with
        | nil => simp at h
        | cons t' ts =>
          simp only [List.map_cons, List.cons.injEq] at ht h
          obtain ⟨o, o1, o2, o3⟩ := normalizeMain_one (hg gs (by simp)) ht.1 (hc gs (by simp)) h.1
          obtain ⟨os, e1, e2, e3⟩ := ih texts ts (fun q hq => hg q (by simp [hq])) ht.2 (fun q hq => hc q (by simp [hq])) h.2
          refine ⟨o :: os, by simp [o1, e1], by simp [o2, e2], ?_⟩
          intro q hq
          rcases List.mem_cons.1 hq with rfl | hq
          · exact o3
          · exact e3 q hq
  obtain ⟨os, e1, e2, e3⟩ := key ins texts ts hg ht hc h
  have hl : texts.length = ts.length := by simpa using congrArg List.length h
  have hp := C125_parts S S' ins os e1 (fun p hp g hg' => (hg p hp g hg').img.full) ho
  unfold normalizeMain
  rw [readGlyphFiles_write os ts [] e3 e2, readGlyphFiles_write ins texts [] hg ht]
  simp only [Res.ok_bind, List.nil_append, hp]
  cases texts with
  | nil =>
    cases ts with
    | nil => rfl
    | cons => simp at hl
  | cons =>
    cases ts with
    | nil => simp at hl
    | cons => simp

/-- Two files that share a picture: `b` in the first file, twice, and `a` in the second. -/
def shareA : List LGlyph := [⟨⟨⟨1, 1⟩, [120]⟩, [⟨[98], [102], 7⟩]⟩, ⟨⟨⟨1, 1⟩, [120]⟩, [⟨[98], [102], 7⟩]⟩]
def shareB : List LGlyph := [⟨⟨⟨2, 1⟩, [120, 45]⟩, [⟨[105], [102], 1⟩]⟩, ⟨⟨⟨1, 1⟩, [120]⟩, [⟨[97], [102], 7⟩]⟩]

example : ([shareA, shareB].map (normalizeGlyphs insertionSort) =
      [[⟨⟨⟨1, 1⟩, [120]⟩, [⟨[98], [102], 7⟩]⟩],
       [⟨⟨⟨1, 1⟩, [120]⟩, [⟨[97], [102], 7⟩]⟩, ⟨⟨⟨2, 1⟩, [120, 45]⟩, [⟨[105], [102], 1⟩]⟩]].map Res.ok) ∧
    normalizeGlyphs insertionSort (shareA ++ shareB) =
      .ok [⟨⟨⟨1, 1⟩, [120]⟩, [⟨[97], [102], 7⟩, ⟨[98], [102], 7⟩]⟩, ⟨⟨⟨2, 1⟩, [120, 45]⟩, [⟨[105], [102], 1⟩]⟩] := by
  decide +kernel

/-- A glyph with two views that are not in order. -/
def unordered : List LGlyph := [⟨⟨⟨2, 1⟩, [120, 45]⟩, [⟨[98], [102], 1⟩, ⟨[97], [102], 1⟩]⟩]

/-- The order of the views is needed: a glyph that no other file shares keeps its views as they are, or has them sorted, as there
is a smaller picture that was merged in the same run, or not. -/
theorem C125_unordered :
    normalizeGlyphs insertionSort (shareA ++ unordered) =
      .ok [⟨⟨⟨1, 1⟩, [120]⟩, [⟨[98], [102], 7⟩]⟩, ⟨⟨⟨2, 1⟩, [120, 45]⟩, [⟨[97], [102], 1⟩, ⟨[98], [102], 1⟩]⟩] ∧
    ∃ a b, normalizeGlyphs insertionSort shareA = .ok a ∧ normalizeGlyphs insertionSort unordered = .ok b ∧
      normalizeGlyphs insertionSort (a ++ b) =
        .ok [⟨⟨⟨1, 1⟩, [120]⟩, [⟨[98], [102], 7⟩]⟩, ⟨⟨⟨2, 1⟩, [120, 45]⟩, [⟨[98], [102], 1⟩, ⟨[97], [102], 1⟩]⟩] :=
  ⟨by decide +kernel, [⟨⟨⟨1, 1⟩, [120]⟩, [⟨[98], [102], 7⟩]⟩], unordered, by decide +kernel, by decide +kernel, by decide +kernel⟩

end Ppocr.Props

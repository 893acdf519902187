import Verif.Props.Normalize
import Verif.Props.NormalizeOrder

/-! # Merging what was merged -/

namespace Ppocr
open Spec Props

/-- The views of a glyph are in the order in which `normalize_glyphs` leaves them. -/
abbrev ViewsInOrder (g : LGlyph) : Prop := g.views.Pairwise fun a b => viewLt a b = true

theorem ordered_ext : ∀ {a b : List LView}, a.Pairwise (fun a b => viewLt a b = true) → b.Pairwise (fun a b => viewLt a b = true) →
    (∀ v, v ∈ a ↔ v ∈ b) → a = b
  | [], [], _, _, _ => rfl
  | [], y :: b, _, _, h => absurd ((h y).2 (by simp)) (by simp)
  | x :: a, [], _, _, h => absurd ((h x).1 (by simp)) (by simp)
  | x :: a, y :: b, ha, hb, h => by
    rw [List.pairwise_cons] at ha hb
    have e : x = y := by
      rcases List.mem_cons.1 ((h x).1 (by simp)) with e | hx
      · exact e
      · rcases List.mem_cons.1 ((h y).2 (by simp)) with e | hy
        · exact e.symm
        · have := viewLt_trans (hb.1 x hx) (ha.1 y hy)
          rw [viewLt_irrefl] at this
          cases this
    subst e
    congr 1
    refine ordered_ext ha.2 hb.2 fun v => ⟨fun hv => ?_, fun hv => ?_⟩
    · rcases List.mem_cons.1 ((h v).1 (by simp [hv])) with e | h'
      · have := ha.1 v hv
        rw [e, viewLt_irrefl] at this
        cases this
      · exact h'
    · rcases List.mem_cons.1 ((h v).2 (by simp [hv])) with e | h'
      · have := hb.1 v hv
        rw [e, viewLt_irrefl] at this
        cases this
      · exact h'

theorem merged_ext : ∀ {a b : List LGlyph}, a.map LGlyph.img = b.map LGlyph.img → (∀ g ∈ a, ViewsInOrder g) → (∀ g ∈ b, ViewsInOrder g) →
    (∀ g ∈ a, ∀ g' ∈ b, g.img = g'.img → ∀ v, v ∈ g.views ↔ v ∈ g'.views) → a = b
  | [], [], _, _, _, _ => rfl
  | [], _ :: _, h, _, _, _ => by simp at h
  | _ :: _, [], h, _, _, _ => by simp at h
  | x :: a, y :: b, h, ha, hb, hv => by
    simp only [List.map_cons, List.cons.injEq] at h
    have e := ordered_ext (ha x (by simp)) (hb y (by simp)) (hv x (by simp) y (by simp) h.1)
    rw [merged_ext h.2 (fun g hg => ha g (by simp [hg])) (fun g hg => hb g (by simp [hg]))
      fun g hg g' hg' => hv g (by simp [hg]) g' (by simp [hg'])]
    congr 1
    obtain ⟨i, v⟩ := x
    obtain ⟨j, w⟩ := y
    cases h.1
    cases e
    rfl

theorem ordered_normalize {S : StdSort} {gs out : List LGlyph} (hf : ∀ g ∈ gs, g.img.Full) (ho : ∀ g ∈ gs, ViewsInOrder g)
    (h : normalizeGlyphs S gs = .ok out) : ∀ g ∈ out, ViewsInOrder g := by
  intro g hg
  rcases C71_views S gs out hf h g hg with ⟨h1, _⟩ | h1
  · exact ho g h1
  · exact h1

/-- The parts and what was made of each. -/
inductive EachMerged (S : StdSort) : List (List LGlyph) → List (List LGlyph) → Prop
  | nil : EachMerged S [] []
  | cons {p o ps os} : normalizeGlyphs S p = .ok o → EachMerged S ps os → EachMerged S (p :: ps) (o :: os)

theorem EachMerged.same {S : StdSort} {ps os : List (List LGlyph)} (h : EachMerged S ps os) (hf : ∀ p ∈ ps, ∀ g ∈ p, g.img.Full) :
    (∀ i, (∃ g ∈ os.flatten, g.img = i) ↔ ∃ g ∈ ps.flatten, g.img = i) ∧
    (∀ i v, (∃ g ∈ os.flatten, g.img = i ∧ v ∈ g.views) ↔ ∃ g ∈ ps.flatten, g.img = i ∧ v ∈ g.views) := by
  induction h with
  | nil => simp
  | @cons p o ps os e _ ih =>
    obtain ⟨i1, i2⟩ := ih fun q hq => hf q (by simp [hq])
    obtain ⟨o', e', hm, _⟩ := normalizeGlyphs_ok S p (hf p (by simp))
    rw [e] at e'
    cases e'
    simp only [List.flatten_cons, List.mem_append, or_and_right, exists_or]
    refine ⟨fun i => by rw [hm.images i, i1 i], fun i v => ?_⟩
    rw [i2 i v]
    refine or_congr ⟨?_, ?_⟩ Iff.rfl
    · rintro ⟨g, hg, rfl, hv⟩
      obtain ⟨g', h1, h2, h3⟩ := (hm.views g hg v).1 hv
      exact ⟨g', h1, h2, h3⟩
    · rintro ⟨g, hg, rfl, hv⟩
      obtain ⟨g', h1, h2⟩ := (hm.images g.img).2 ⟨g, hg, rfl⟩
      exact ⟨g', h1, h2, (hm.views g' h1 v).2 ⟨g, hg, h2.symm, hv⟩⟩

theorem EachMerged.keeps {S : StdSort} {ps os : List (List LGlyph)} (h : EachMerged S ps os) (hf : ∀ p ∈ ps, ∀ g ∈ p, g.img.Full)
    (ho : ∀ p ∈ ps, ∀ g ∈ p, ViewsInOrder g) : ∀ g ∈ os.flatten, g.img.Full ∧ ViewsInOrder g := by
  induction h with
  | nil => simp
  | @cons p o ps os e _ ih =>
    obtain ⟨o', e', hm, _⟩ := normalizeGlyphs_ok S p (hf p (by simp))
    rw [e] at e'
    cases e'
    intro g hg
    rw [List.flatten_cons, List.mem_append] at hg
    rcases hg with hg | hg
    · exact ⟨merged_full hm (hf p (by simp)) g hg, ordered_normalize (hf p (by simp)) (ho p (by simp)) e g hg⟩
    · exact ih (fun q hq => hf q (by simp [hq])) (fun q hq => ho q (by simp [hq])) g hg

theorem EachMerged.full {S : StdSort} {ps os : List (List LGlyph)} (h : EachMerged S ps os) (hf : ∀ p ∈ ps, ∀ g ∈ p, g.img.Full) :
    ∀ g ∈ os.flatten, g.img.Full := by
  intro g hg
  obtain ⟨g', hg', e⟩ := ((h.same hf).1 g.img).1 ⟨g, hg, rfl⟩
  obtain ⟨p, hp, hg'⟩ := List.mem_flatten.1 hg'
  exact e ▸ hf p hp g' hg'

theorem EachMerged.merged {S S' : StdSort} {ps os : List (List LGlyph)} (h : EachMerged S ps os)
    (hf : ∀ p ∈ ps, ∀ g ∈ p, g.img.Full) : ∃ a, normalizeGlyphs S' os.flatten = .ok a ∧ Merged ps.flatten a := by
  obtain ⟨s1, s2⟩ := h.same hf
  obtain ⟨a, ea, ma, _⟩ := normalizeGlyphs_ok S' os.flatten (h.full hf)
  exact ⟨a, ea, ma.order, fun i => by rw [ma.images i, s1 i], fun g hg v => by rw [ma.views g hg v, s2 g.img v]⟩

theorem EachMerged.whole {S S' : StdSort} {ps os : List (List LGlyph)} (h : EachMerged S ps os)
    (hf : ∀ p ∈ ps, ∀ g ∈ p, g.img.Full) (ho : ∀ p ∈ ps, ∀ g ∈ p, ViewsInOrder g) :
    normalizeGlyphs S' os.flatten = normalizeGlyphs S' ps.flatten := by
  have hk := h.keeps hf ho
  have hf' : ∀ g ∈ ps.flatten, g.img.Full := by
    intro g hg
    obtain ⟨p, hp, hg⟩ := List.mem_flatten.1 hg
    exact hf p hp g hg
  have ho' : ∀ g ∈ ps.flatten, ViewsInOrder g := by
    intro g hg
    obtain ⟨p, hp, hg⟩ := List.mem_flatten.1 hg
    exact ho p hp g hg
  obtain ⟨a, ea, ma'⟩ := h.merged (S' := S') hf
  obtain ⟨b, eb, mb, _⟩ := normalizeGlyphs_ok S' ps.flatten hf'
  obtain ⟨u1, u2⟩ := C51_unique ma' mb
  rw [ea, eb, merged_ext u1 (ordered_normalize (fun g hg => (hk g hg).1) (fun g hg => (hk g hg).2) ea)
    (ordered_normalize hf' ho' eb) u2]

end Ppocr

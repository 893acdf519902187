import Verif.Spec.Setup

/-! # Specification for C99: glyphs added to a table -/

namespace Ppocr.Spec

/-- A simple strategy tells the pictures apart: their features differ by more than a tenth of its interval. -/
def Far (i a : Image) : Prop :=
  ∃ s ∈ simpleStrats, ∃ ri ra x y, i.rotate90 = .ok ri ∧ a.rotate90 = .ok ra ∧
    feature s i ri = .ok (.num x) ∧ feature s a ra = .ok (.num y) ∧ (x + s.1.k / 10 < y ∨ y + s.1.k / 10 < x)

/-- The second table holds the glyphs of the first one: glyph `g` is at place `e g`, and `ρ` renumbers its words and fonts. -/
structure Within (e : Nat → Nat) (ρ : View → View) (imgs : List Image) (glyphs : List (List View)) (imgs' : List Image)
    (glyphs' : List (List View)) : Prop where
  place : ∀ g i, imgs[g]? = some i → imgs'[e g]? = some i
  views : ∀ g vs, glyphs[g]? = some vs → glyphs'[e g]? = some (vs.map ρ)
  once : ∀ g h, g < imgs.length → h < imgs.length → e g = e h → g = h
  words : ∀ vs ∈ glyphs, ∀ v ∈ vs, ∀ us ∈ glyphs, ∀ u ∈ us, (ρ v).word = (ρ u).word ↔ v.word = u.word

/-- Glyph `g` of the second table is an added one. -/
def Added (e : Nat → Nat) (imgs : List Image) (g : Nat) : Prop := ∀ k, k < imgs.length → e k ≠ g

/-- No added glyph has the first word of a glyph that was there. -/
def NewWords (e : Nat → Nat) (imgs : List Image) (glyphs' : List (List View)) : Prop :=
  ∀ g, Added e imgs g → ∀ k, k < imgs.length → firstWord glyphs' g ≠ firstWord glyphs' (e k)

/-- All added glyphs are far from the letter. -/
def AddedFar (e : Nat → Nat) (imgs imgs' : List Image) (a : Image) : Prop :=
  ∀ g i, Added e imgs g → imgs'[g]? = some i → Far i a

end Ppocr.Spec

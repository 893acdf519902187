import Verif.Spec.Setup
import Verif.Model.Text6

/-! # Specification of the recognition of a letter by `extract_text6` -/

namespace Ppocr.Spec

/-- Picture `i` matches the letter `a`: each of its twenty features, of the picture or of the turned picture, has the same tens as
the feature of the letter, which is never turned. -/
def Exact6 (i a : Image) : Prop :=
  ∃ ri ra, i.rotate90 = .ok ri ∧ a.rotate90 = .ok ra ∧ ∀ s ∈ simpleStrats, ∃ x y,
    feature s i ri = .ok (.num x) ∧ feature (s.1, .img) a ra = .ok (.num y) ∧ x / 10 = y / 10

/-- The same, but the tens of the `dvdirection` of the turned picture may differ by two. -/
def Near6 (i a : Image) : Prop :=
  ∃ ri ra, i.rotate90 = .ok ri ∧ a.rotate90 = .ok ra ∧ ∀ s ∈ simpleStrats, ∃ x y,
    feature s i ri = .ok (.num x) ∧ feature (s.1, .img) a ra = .ok (.num y) ∧
      if s = (.dvdirection, .img90) then x / 10 ≤ y / 10 + 2 ∧ y / 10 ≤ x / 10 + 2 else x / 10 = y / 10

/-- The bars of the picture and those of the turned picture are those of the letter, and at least four of the seven
alternations are the same. -/
def Bars6 (i a : Image) : Prop :=
  ∃ ri ra, i.rotate90 = .ok ri ∧ a.rotate90 = .ok ra ∧
    (∀ p, feature (.hbar, p) i ri = feature (.hbar, .img) a ra) ∧
    ∃ x y, feature (.alternations, .img) i ri = .ok (.alt x) ∧ feature (.alternations, .img) a ra = .ok (.alt y) ∧ 4 ≤ agree x y

/-- Picture `j` is another one with the first word of picture `g`. -/
def Twin6 (ws : List Words) (g j : Nat) : Prop :=
  j ≠ g ∧ ∃ v u, ws[g]? = some v ∧ ws[j]? = some u ∧ u.head? = v.head?

/-- Picture `g` is near to the letter and has its bars, and if there are others with its first word, one of them has the
zones of the letter. -/
def Kept6 (imgs : List Image) (ws : List Words) (a : Image) (g : Nat) : Prop :=
  (∃ i, imgs[g]? = some i ∧ Near6 i a ∧ Bars6 i a) ∧
    ((∀ j, ¬ Twin6 ws g j) ∨ ∃ j b, Twin6 ws g j ∧ imgs[j]? = some b ∧ SameZones b a)

/-- Picture `g` matches the letter. -/
def Match6 (imgs : List Image) (a : Image) (g : Nat) : Prop := ∃ i, imgs[g]? = some i ∧ Exact6 i a

/-- The pictures whose words the letter gets: those that match, or if there are none those that are kept. -/
def Chosen6 (imgs : List Image) (ws : List Words) (a : Image) (g : Nat) : Prop :=
  Match6 imgs a g ∨ ((∀ k, ¬ Match6 imgs a k) ∧ Kept6 imgs ws a g)

/-- The reading of the letter: `amb` has the words of the chosen pictures, with `r2` the first of them; the cache has them
too. Without any, `r2` and the cache have "_". `r1` is the first word of a picture near to the letter, or "_". -/
structure Reads6 (imgs : List Image) (ws : List Words) (a : Image) (o : Letter6) : Prop where
  words : ∀ w, w ∈ o.amb ↔ ∃ (g : Nat) (v : Words), Chosen6 imgs ws a g ∧ ws[g]? = some v ∧ w ∈ v
  read : o.amb ≠ [] → o.cached = o.amb ∧ o.amb.head? = some o.r2
  unread : o.amb = [] → o.cached = [[95]] ∧ o.r2 = [95]
  first : (∃ (g : Nat) (i : Image) (v : Words), imgs[g]? = some i ∧ Near6 i a ∧ ws[g]? = some v ∧ v.head? = some o.r1) ∨
    ((∀ i ∈ imgs, ¬ Near6 i a) ∧ o.r1 = [95])
  same : (∃ g, Match6 imgs a g) → o.r1 = o.r2

/-- Reading the letter divides by zero. -/
def Jam6 (imgs : List Image) (ws : List Words) (a : Image) : Prop :=
  (∀ k, ¬ Match6 imgs a k) ∧ ∃ (g : Nat) (i : Image) (j : Nat) (b : Image), imgs[g]? = some i ∧ Near6 i a ∧ Bars6 i a ∧
    Twin6 ws g j ∧ imgs[j]? = some b ∧ SameZones b a ∧ Clash b a

end Ppocr.Spec

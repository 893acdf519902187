import Verif.Spec.Text6
import Verif.Model.Letter8

/-! # Specification of the recognition of a letter by `extract_text8` -/

namespace Ppocr.Spec

/-- Picture `i` matches the letter `a`: each of its twenty features, of the picture or of the turned picture, is the feature of the
letter, which is never turned. -/
def Exact8 (i a : Image) : Prop :=
  ∃ ri ra, i.rotate90 = .ok ri ∧ a.rotate90 = .ok ra ∧ ∀ s ∈ simpleStrats, ∃ x,
    feature s i ri = .ok (.num x) ∧ feature (s.1, .img) a ra = .ok (.num x)

/-- The same, but each may differ by a tenth of its interval. -/
def Near8 (i a : Image) : Prop :=
  ∃ ri ra, i.rotate90 = .ok ri ∧ a.rotate90 = .ok ra ∧ ∀ s ∈ simpleStrats, ∃ x y,
    feature s i ri = .ok (.num x) ∧ feature (s.1, .img) a ra = .ok (.num y) ∧ x ≤ y + s.1.k / 10 ∧ y ≤ x + s.1.k / 10

/-- The similarity of numbers up to `k`, in percent. -/
def likeness (k x y : Nat) : Nat := (k - (max x y - min x y)) * 100 / k

/-- A number that was computed. -/
def numOf : Res Value → Nat
  | .ok (.num n) => n
  | _ => 0

/-- The order in which the features are compared. -/
def order8 : List (Feat × Policy) :=
  [16, 12, 18, 19, 11, 15, 14, 10, 13, 17, 9, 5, 4, 1, 7, 8, 3, 0, 6, 2].filterMap fun k => simpleStrats[k]?

/-- The probability of picture `i` for the letter `a` from the twenty features: the product of their similarities. -/
def simpleScore (P : Type) [Prob8 P] (i a : Image) : P :=
  match i.rotate90, a.rotate90 with
  | .ok ri, .ok ra => order8.foldl
      (fun p s => Prob8.scale p (likeness s.1.k (numOf (feature s i ri)) (numOf (feature (s.1, .img) a ra))) 100) Prob8.one
  | _, _ => Prob8.one

/-- The number of alternations, of seven, that are the same. -/
def sameAlts (i a : Image) : Nat :=
  match i.rotate90, a.rotate90 with
  | .ok ri, .ok ra =>
    match feature (.alternations, .img) i ri, feature (.alternations, .img) a ra with
    | .ok (.alt x), .ok (.alt y) => agree x y
    | _, _ => 0
  | _, _ => 0

/-- The probability with the bars, which are the same, twice, and the alternations. -/
def fullScore (P : Type) [Prob8 P] (i a : Image) : P :=
  Prob8.scale (Prob8.scale (Prob8.scale (simpleScore P i a) 1 1) 1 1) (sameAlts i a * 100 / 7) 100

/-- Picture `g` matches the letter. -/
def Match8 (imgs : List Image) (a : Image) (g : Nat) : Prop := ∃ i, imgs[g]? = some i ∧ Exact8 i a

/-- Picture `g` is near to the letter and has its bars, and if there are others with its first word, one of them has the
zones of the letter. -/
def Kept8 (imgs : List Image) (ws : List Words) (a : Image) (g : Nat) : Prop :=
  (∃ i, imgs[g]? = some i ∧ Near8 i a ∧ Bars6 i a) ∧
    ((∀ j, ¬ Twin6 ws g j) ∨ ∃ j b, Twin6 ws g j ∧ imgs[j]? = some b ∧ SameZones b a)

/-- Picture `g` is kept, and none of those that are kept is more probable. -/
def Best8 (P : Type) [Prob8 P] (imgs : List Image) (ws : List Words) (a : Image) (g : Nat) : Prop :=
  Kept8 imgs ws a g ∧ ∀ (k : Nat) (i j : Image), Kept8 imgs ws a k → imgs[g]? = some i → imgs[k]? = some j →
    Prob8.le (fullScore P j a) (fullScore P i a) = true

/-- The pictures whose words the letter gets: those that match, or if there are none the best ones of those that are kept. -/
def Chosen8 (P : Type) [Prob8 P] (imgs : List Image) (ws : List Words) (a : Image) (g : Nat) : Prop :=
  Match8 imgs a g ∨ ((∀ k, ¬ Match8 imgs a k) ∧ Best8 P imgs ws a g)

/-- The reading of the letter: `amb` has the words of the chosen pictures, with `r2` the first of them; the cache has them
too. Without any, `r2` and the cache have "_". `r1` is the first word of the most probable picture near to the letter, or
"_". -/
structure Reads8 (P : Type) [Prob8 P] (imgs : List Image) (ws : List Words) (a : Image) (o : Letter6) : Prop where
  words : ∀ w, w ∈ o.amb ↔ ∃ (g : Nat) (v : Words), Chosen8 P imgs ws a g ∧ ws[g]? = some v ∧ w ∈ v
  read : o.amb ≠ [] → o.cached = o.amb ∧ o.amb.head? = some o.r2
  unread : o.amb = [] → o.cached = [[95]] ∧ o.r2 = [95]
  first : (∃ (g : Nat) (i : Image) (v : Words), imgs[g]? = some i ∧ Near8 i a ∧
      (∀ j ∈ imgs, Near8 j a → Prob8.le (simpleScore P j a) (simpleScore P i a) = true) ∧ ws[g]? = some v ∧ v.head? = some o.r1) ∨
    ((∀ i ∈ imgs, ¬ Near8 i a) ∧ o.r1 = [95])
  same : (∃ g, Match8 imgs a g) → o.r1 = o.r2

/-- Reading the letter divides by zero. -/
def Jam8 (imgs : List Image) (ws : List Words) (a : Image) : Prop :=
  (∀ k, ¬ Match8 imgs a k) ∧ ∃ (g : Nat) (i : Image) (j : Nat) (b : Image), imgs[g]? = some i ∧ Near8 i a ∧ Bars6 i a ∧
    Twin6 ws g j ∧ imgs[j]? = some b ∧ SameZones b a ∧ Clash b a

end Ppocr.Spec

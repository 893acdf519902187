import Verif.Spec.Datas
import Verif.Spec.Ocr2
import Verif.Spec.Zone
import Verif.Model.Box
import Verif.Model.Setup

/-! # Specification of recognition with the tables of the program -/

namespace Ppocr.Spec

/-- The tables hold the features of the pictures, in order. -/
structure Learnt (imgs : List Image) (d : Datas) : Prop where
  strats : d.tables.map Table.strat = registered
  rows : ∀ t ∈ d.tables, t.vals.length = imgs.length ∧
    ∀ (k : Nat) (i r : Image), imgs[k]? = some i → i.rotate90 = .ok r → ∃ v, t.vals[k]? = some v ∧ feature t.strat i r = .ok v

/-- No simple strategy tells the two pictures apart: their features differ by less than a hundredth of the interval. -/
def Alike (a b : Image) : Prop :=
  ∀ s ∈ simpleStrats, ∃ ra rb x y, a.rotate90 = .ok ra ∧ b.rotate90 = .ok rb ∧
    feature s a ra = .ok (.num x) ∧ feature s b rb = .ok (.num y) ∧ (x - y + (y - x)) * 100 < s.1.k

/-- Picture `g` of the learnt ones exists and is alike to the letter. -/
def AlikeGlyph (imgs : List Image) (a : Image) (g : Nat) : Prop := ∃ i, imgs[g]? = some i ∧ Alike i a

/-- Number of places at which two lists agree. -/
def agree {V : Type} [DecidableEq V] (x y : List V) : Nat := (List.zip x y).countP fun p => decide (p.1 = p.2)

/-- The picture is close to the letter: the simple features differ by at most a tenth of the interval, the bars are the same,
and at least four of the seven alternations. -/
def CloseTo (i a : Image) : Prop :=
  ∃ ri ra, i.rotate90 = .ok ri ∧ a.rotate90 = .ok ra ∧
    (∀ s ∈ simpleStrats, ∃ x y, feature s i ri = .ok (.num x) ∧ feature s a ra = .ok (.num y) ∧
      x ≤ y + s.1.k / 10 ∧ y ≤ x + s.1.k / 10) ∧
    (∀ p, feature (.hbar, p) i ri = feature (.hbar, p) a ra) ∧
    ∃ x y, feature (.alternations, .img) i ri = .ok (.alt x) ∧ feature (.alternations, .img) a ra = .ok (.alt y) ∧ 4 ≤ agree x y

open Classical in
/-- The picture has the zones of the letter: at least four of the seven entries are the same, and equally many zones are on the
border. -/
def SameZones (i a : Image) : Prop :=
  ∃ ri ra x y F G, i.rotate90 = .ok ri ∧ a.rotate90 = .ok ra ∧
    feature (.zone, .img) i ri = .ok (.arr x) ∧ feature (.zone, .img) a ra = .ok (.arr y) ∧ 4 ≤ agree x y ∧
    ZoneList i F ∧ ZoneList a G ∧ F.countP (fun f => decide (OnBorder i f)) = G.countP (fun f => decide (OnBorder a f))

/-- The letter divides by zero: no learnt picture is alike to it, and for some picture close to it the first other one of the
same word that has its zones clashes with it. -/
def Blocked (imgs : List Image) (glyphs : List (List View)) (a : Image) : Prop :=
  (∀ g, ¬ AlikeGlyph imgs a g) ∧
  ∃ g i pre j post b, imgs[g]? = some i ∧ CloseTo i a ∧ others glyphs g = pre ++ j :: post ∧
    (∀ k ∈ pre, ∀ c, imgs[k]? = some c → ¬ SameZones c a) ∧ imgs[j]? = some b ∧ SameZones b a ∧ Clash b a

/-- The letter can be compared with the learnt pictures. -/
def Comparable (imgs : List Image) (glyphs : List (List View)) (a : Image) : Prop := ¬ Blocked imgs glyphs a

/-- The size of a letter is within the limits of the strategies (see `Sized`): up to 440 columns and rows, for example. -/
def Fits (b : Box) : Prop := 100 * (b.w * b.h) + 100 < 2147483648 ∧ 25 * (b.w * b.h * (b.w + b.h + 2)) < 4294967296

instance (b : Box) : Decidable (Fits b) := by unfold Fits; infer_instance

end Ppocr.Spec

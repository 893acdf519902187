import Verif.Model.Ocr2

/-!
# Specification of the recognition of one letter
-/

namespace Ppocr.Spec

/-- Entry `g` of the table exists and differs from `v` by at most `d`. -/
def Near (tab : List Nat) (v d g : Nat) : Prop :=
  ∃ t, tab[g]? = some t ∧ t ≤ v + d ∧ v ≤ t + d

/-- Similarity of two values of an interval of length `k`, in percent. -/
def sim (k a b : Nat) : Nat := 100 - (a - b + (b - a)) * 100 / k

/-- The value of a computation, `d` if it has none. -/
def valueOr {α : Type} (d : α) : Res α → α
  | .ok a => a
  | _ => d

/-- Similarity, in percent, of glyph `g` and of the image for a complex strategy. -/
def simOf (s : Strat) (img img90 : Image) (g : Nat) : Nat :=
  valueOr 0 (do let v ← s.load img img90; let w ← rd s.tab g; s.rel.compute v w)

/-- Test of glyph `g` against the image for an exclusive strategy, which may fail. -/
def testRun (s : Strat) (img img90 : Image) (g : Nat) : Res Bool := do
  let v ← s.load img img90
  let w ← rd s.tab g
  s.rel.inDist w v (s.rel.count / 2)

/-- Test of glyph `g` against the image for an exclusive strategy. -/
def testOf (s : Strat) (img img90 : Image) (g : Nat) : Bool := valueOr false (testRun s img img90 g)

/-- The first tests pass and the next one refuses the glyph. -/
def Refused (ss : List Strat) (img img90 : Image) (g : Nat) : Prop :=
  ∃ s1 s s2, ss = s1 ++ s :: s2 ∧ (∀ t ∈ s1, testRun t img img90 g = .ok true) ∧ testRun s img img90 g = .ok false

/-- The first tests pass and the next one fails. -/
def Broken (ss : List Strat) (img img90 : Image) (g : Nat) : Prop :=
  ∃ s1 s s2, ss = s1 ++ s :: s2 ∧ (∀ t ∈ s1, testRun t img img90 g = .ok true) ∧ ∀ b, testRun s img img90 g ≠ .ok b

/-- The search for a glyph of the same word as glyph `g` that passes every test comes to one on which a test fails. -/
def Stuck (byWords : List (List Nat)) (ss : List Strat) (img img90 : Image) (g : Nat) : Prop :=
  ∃ pre j post, byWords.getD g [] = pre ++ j :: post ∧ (∀ k ∈ pre, Refused ss img img90 k) ∧ Broken ss img img90 j

/-- The strategy can be evaluated on this image and every entry of its table of `n` entries. -/
structure Safe (s : Strat) (img img90 : Image) (n : Nat) : Prop where
  len : s.tab.length = n
  ok : ∃ v, s.load img img90 = .ok v ∧ ∀ w ∈ s.tab,
    (∃ c, s.rel.compute v w = .ok c ∧ c ≤ 100) ∧ ∃ b, s.rel.inDist w v (s.rel.count / 2) = .ok b

/-- The other members of a group of glyphs in the order in which they are tried: the last one of the group first, then the
others from the first on; for the last one, from the first on. -/
def restOf (l : List Nat) (j : Nat) : List Nat :=
  match l.getLast? with
  | none => []
  | some m => if j = m then l.dropLast else m :: l.dropLast.filter fun k => decide (k ≠ j)

/-- The word of the first view of glyph `g`. -/
def firstWord (glyphs : List (List View)) (g : Nat) : Option Nat :=
  (glyphs[g]?.bind List.head?).map View.word

/-- The other glyphs with the first word of glyph `g`, in the order in which they are tried. -/
def others (glyphs : List (List View)) (g : Nat) : List Nat :=
  restOf ((List.range glyphs.length).filter fun j => decide (firstWord glyphs j = firstWord glyphs g)) g

variable {P : Type} [Dbl P]

/-- Product of the similarities of glyph `g` for the simple strategies, in order. -/
def score (val : Simple → Nat) (first : Simple) (ss : List Simple) (g : Nat) : P :=
  ss.foldl (fun a s => Dbl.mul a (Dbl.ofPct (sim s.k (s.tab.getD g 0) (val s))))
    (Dbl.ofPct (sim first.k (first.tab.getD g 0) (val first)))

/-- Distinct glyph indexes below `n`. -/
def Good {P : Type} (n : Nat) (l : List (Nat × P)) : Prop := (l.map Prod.fst).Nodup ∧ ∀ p ∈ l, p.1 < n

/-- `S` holds the best candidates of `U`, one for each view id, in non-increasing probability. -/
structure Best (ids : List Nat) (U S : List (Nat × P)) : Prop where
  sub : ∀ p ∈ S, p ∈ U
  distinct : S.Pairwise fun a b => ids.getD a.1 0 ≠ ids.getD b.1 0
  sorted : S.Pairwise fun a b => Dbl.le b.2 a.2 = true
  cover : ∀ u ∈ U, ∃ p ∈ S, ids.getD p.1 0 = ids.getD u.1 0 ∧ Dbl.le u.2 p.2 = true

/-- Glyph `g` is at least half similar for every complex strategy. -/
def complexKeep (P : Type) [Dbl P] (ss : List Strat) (img img90 : Image) (g : Nat) : Bool :=
  ss.all fun s => Dbl.le (Dbl.ofPct 50 : P) (Dbl.ofPct (simOf s img img90 g))

/-- Its probability multiplied by its similarities. -/
def complexScore (ss : List Strat) (img img90 : Image) (p : Nat × P) : Nat × P :=
  (p.1, ss.foldl (fun a s => Dbl.mul a (Dbl.ofPct (simOf s img img90 p.1))) p.2)

/-- Glyph `g` has no other glyph of its word, or one of them passes every exclusive test. -/
def wordKeep (byWords : List (List Nat)) (ss : List Strat) (img img90 : Image) (g : Nat) : Bool :=
  (byWords.getD g []).isEmpty ||
    (byWords.getD g []).any fun j => ss.all fun s => testOf s img img90 j

/-- What is asked of a simple strategy: an interval of a sensible length, a table of `n` entries. -/
structure SimpleOk (val : Simple → Nat) (n : Nat) (s : Simple) : Prop where
  pos : 0 < s.k
  small : s.k * 100 < W32
  len : s.tab.length = n
  inRange : val s + s.k / 10 < W32

/-- The tables and buffers fit together: `n` glyphs everywhere. -/
structure SetupBase (s : Setup P) (val : Simple → Nat) (n : Nat) (img img90 : Image) : Prop where
  load : ∀ t ∈ s.first :: s.simple, t.load img img90 = .ok (val t)
  simple : ∀ t ∈ s.first :: s.simple, SimpleOk val n t
  complex : ∀ t ∈ s.complex, Safe t img img90 n
  loads : ∀ t ∈ s.exclusive, ∃ v, t.load img img90 = .ok v
  cap : n ≤ s.cap
  capTmp : n ≤ s.capTmp
  idx : s.idx = indexesOrdered s.sort s.first.tab
  byWords : s.byWords.length = n
  byWordsIn : ∀ l ∈ s.byWords, ∀ j ∈ l, j < n
  glyphs : s.glyphs.length = n
  ids : s.ids.length = n

/-- Besides, the exclusive tests are defined where they are made: for a letter that no glyph matches perfectly, on the glyphs
of the words of the candidates that the complex strategies keep. -/
structure SetupOk (s : Setup P) (val : Simple → Nat) (n : Nat) (img img90 : Image) : Prop extends SetupBase s val n img img90 where
  exclusive : ∀ U : List (Nat × P), computeSimpleUniverse s.cap s.first s.simple s.idx img img90 = .ok U →
    (∀ p ∈ U, Dbl.le (Dbl.ofPct 100) p.2 = false) → ∀ p ∈ U, complexKeep P s.complex img img90 p.1 = true →
    ¬ Stuck s.byWords s.exclusive img img90 p.1

/-- The views of the candidates of probability at least `limit`. -/
def viewsOf (glyphs : List (List View)) (S : List (Nat × P)) (limit : P) : List View :=
  (S.filter fun p => Dbl.le limit p.2).flatMap fun p => glyphs.getD p.1 []

/-- The candidates left by the complex and exclusive strategies. -/
def survivors (s : Setup P) (img img90 : Image) (U : List (Nat × P)) : List (Nat × P) :=
  ((U.filter fun p => complexKeep P s.complex img img90 p.1).map (complexScore s.complex img img90)).filter
    fun p => wordKeep s.byWords s.exclusive img img90 p.1

end Ppocr.Spec

import Verif.Model.Filter

/-! # Specification of the filters of a line -/

namespace Ppocr.Spec

/-- The candidate lists exist. -/
def RefsOk (refs : List Nat) (st : List (List View)) : Prop := ∀ r ∈ refs, r < st.length

/-- Number of unambiguous letters of a font. -/
def fontCount (refs : List Nat) (st : List (List View)) (f : Nat) : Nat :=
  refs.countP fun r =>
    match st[r]? with
    | some [v] => decide (v.font = f)
    | _ => false

/-- `f` is the only font of the unambiguous letters, or that of half of the letters. -/
def Dominant (refs : List Nat) (st : List (List View)) (f : Nat) : Prop :=
  (∀ g, 0 < fontCount refs st g → g = f) ∨ refs.length / 2 ≤ fontCount refs st f

/-- What becomes of a candidate list when the font is `f`: a list of two candidates or more is reduced to
its first candidate of font `f`, or to its first candidate when there is none. -/
def Reduced (f : Nat) (l l' : List View) : Prop :=
  (l.length < 2 → l' = l) ∧
  (2 ≤ l.length →
    (∃ (k : Nat) (v : View), l[k]? = some v ∧ v.font = f ∧ l' = [v] ∧
      ∀ (j : Nat) (u : View), j < k → l[j]? = some u → u.font ≠ f) ∨
    ((∀ u ∈ l, u.font ≠ f) ∧ ∃ v, l[0]? = some v ∧ l' = [v]))

/-- `y` is the most frequent number of `ys`, the smallest one of them. -/
def IsMode (ys : List Nat) (y : Nat) : Prop :=
  y ∈ ys ∧ ∀ z, ys.count z ≤ ys.count y ∧ (ys.count z = ys.count y → z ∈ ys → y ≤ z)

/-- Entries in the order of their words. -/
def InfosSorted (infos : List WordInfo) : Prop := infos.Pairwise fun a b => a.word ≤ b.word

/-- The first entry of a word. -/
def lookup (infos : List WordInfo) (w : Nat) : Option WordInfo := infos.find? fun e => decide (e.word = w)

/-- A position `y` contradicts the declared flags about a line at `pos`. `Upper` (1): at least two rows
above; `Below` (2): on the line, give or take one row; `Above` (4): at least two rows below; the
combinations: strictly above, strictly below. No constraint otherwise. -/
def Contradicts (flags : Nat) (y pos : Int) : Prop :=
  (flags = 1 ∧ ¬ y ≤ pos - 2) ∨ (flags = 2 ∧ ¬ (pos - 1 ≤ y ∧ y ≤ pos + 1)) ∨
  (flags = 4 ∧ ¬ pos + 2 ≤ y) ∨ (flags = 3 ∧ ¬ y ≤ pos - 1) ∨ (flags = 6 ∧ ¬ pos + 1 ≤ y)

/-- A candidate is removed by a line at `pos`. -/
def Wrong (infos : List WordInfo) (field : WordLines → Nat) (y pos : Nat) (v : View) : Prop :=
  ∃ e, lookup infos v.word = some e ∧ Contradicts (field e.lines) y pos

/-- The predicate looks at the word only. -/
def ByWord (p : View → Bool) : Prop := ∀ u v : View, u.word = v.word → p u = p v

/-- All the candidates are views of one word. -/
def OneWord (l : List View) : Prop := ∀ u ∈ l, ∀ v ∈ l, u.word = v.word

/-- `l` begins with a run of views of one word, `g`, and a run of another one, `h`. -/
structure TwoRuns (g h rest l : List View) : Prop where
  eq : l = g ++ h ++ rest
  g_ne : g ≠ []
  h_ne : h ≠ []
  g_word : OneWord g
  h_word : OneWord h
  differ : ∀ u ∈ g, ∀ v ∈ h, u.word ≠ v.word
  ends : ∀ u ∈ h, ∀ v ∈ rest.head?, u.word ≠ v.word

/-- The first view of each run. -/
def starts : List View → List View
  | [] => []
  | [v] => [v]
  | u :: v :: l => u :: if u.word = v.word then (starts (v :: l)).tail else starts (v :: l)

/-- What `filter_line` does, to the list and to the count: nothing if there is one word only; removes the
runs on which `p` holds if it holds on the first one; otherwise keeps the first two runs whatever `p` says,
removes the others on which it holds, and forgets to count the first run. -/
def LineFiltered (p : View → Bool) (l l' : List View) (n : Nat) : Prop :=
  (OneWord l ∧ l' = l ∧ n = 0) ∨
  ∃ g h rest, TwoRuns g h rest l ∧
    (((∀ v ∈ g, p v = true) ∧ l' = l.filter (fun v => !p v) ∧ n = (starts l).countP fun v => !p v) ∨
     ((∀ v ∈ g, p v = false) ∧ l' = g ++ h ++ rest.filter (fun v => !p v) ∧
       n = 1 + ((starts l).drop 2).countP fun v => !p v))

/-- A box inside a 32-bit image. -/
def BoxOk (b : Box) : Prop := 0 < b.h ∧ b.y + b.h + 1 < W32

/-- The boxes of a line of which the first box is neither the lowest nor the one with the lowest top. -/
def Spread (b : Box) (bs : List Box) : Prop :=
  (∃ c ∈ bs, b.y + b.h ≤ c.y + c.h) ∧ ∃ c ∈ bs, b.y ≤ c.y

open Classical in
/-- The top of the box of a letter that counts for the meanline: one counted word, declared on both lines. -/
noncomputable def meanTop (infos : List WordInfo) (b : Box) (l : List View) (n : Nat) : Option Nat :=
  if n = 1 ∧ ∃ v e, l[0]? = some v ∧ lookup infos v.word = some e ∧ e.lines.base = 2 ∧ e.lines.mean = 2
  then some b.y else none

/-- The tops of the letters that count for the meanline. -/
noncomputable def meanTops (infos : List WordInfo) (boxes : List Box) (mids : List (List View × Nat)) : List Nat :=
  (boxes.zip mids).filterMap fun e => meanTop infos e.1 e.2.1 e.2.2

/-- Every candidate list is short enough for a 32-bit count. -/
def StOk (st : List (List View)) : Prop := ∀ l ∈ st, l.length < W32

end Ppocr.Spec

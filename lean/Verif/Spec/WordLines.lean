import Verif.Model.WordLines

/-! # Specification of the text that describes the positions of words -/

namespace Ppocr.Spec

def Blank (c : Nat) : Prop := c = 32 ∨ 9 ≤ c ∧ c ≤ 13
def Digit (c : Nat) : Prop := 48 ≤ c ∧ c ≤ 57

/-- The value of a numeral. -/
def numeral : List Nat → Nat → Nat
  | [], n => n
  | c :: l, n => numeral l (10 * n + (c - 48))

/-- The text begins with blanks and the word `w`; `r` is the rest. -/
def Word (t w r : List Nat) : Prop :=
  ∃ p, t = p ++ (w ++ r) ∧ (∀ c ∈ p, Blank c) ∧ w ≠ [] ∧ (∀ c ∈ w, ¬ Blank c) ∧ ∀ c u, r = c :: u → Blank c

/-- The text begins with blanks and a numeral of an `unsigned` of value `n`. A sign is allowed; `-k` stands for
`2^32 - k`. -/
def Num (t : List Nat) (n : Nat) (r : List Nat) : Prop :=
  ∃ p sgn d, t = p ++ (sgn ++ (d ++ r)) ∧ (∀ c ∈ p, Blank c) ∧ (sgn = [] ∨ sgn = [43] ∨ sgn = [45]) ∧ d ≠ [] ∧
    (∀ c ∈ d, Digit c) ∧ (∀ c u, r = c :: u → ¬ Digit c) ∧ numeral d 0 < 2 ^ 32 ∧
    n = if sgn = [45] then (2 ^ 32 - numeral d 0) % 2 ^ 32 else numeral d 0

/-- A word and four numbers. -/
structure Entry where
  word : List Nat
  ascent : Nat
  cap : Nat
  mean : Nat
  base : Nat

/-- The text begins with an entry. -/
def HasEntry (t : List Nat) (e : Entry) (r : List Nat) : Prop :=
  ∃ r0 r1 r2 r3, Word t e.word r0 ∧ Num r0 e.ascent r1 ∧ Num r1 e.cap r2 ∧ Num r2 e.mean r3 ∧ Num r3 e.base r

/-- The entries at the beginning of a text, up to the first place where there is none. -/
inductive Entries : List Nat → List Entry → Prop
  | stop (t : List Nat) : (¬ ∃ e r, HasEntry t e r) → Entries t []
  | more (t r : List Nat) (e : Entry) (es : List Entry) : HasEntry t e r → Entries r es → Entries t (e :: es)

/-- What is kept of an entry: words of at most 8 bytes, numbers modulo 8. -/
def keep (es : List Entry) : List WWordLines :=
  (es.filter fun e => decide (e.word.length ≤ 8)).map fun e =>
    ⟨e.word, e.ascent % 8, e.cap % 8, e.mean % 8, e.base % 8⟩

/-- The entry `e` is registered by the lines `ls` for the glyphs `g`. -/
def Registered (g : RGlyphs) (ls : List WWordLines) (e : WordInfo) : Prop :=
  e.word ≠ noIndex ∧ ∃ p ∈ ls, wordIndexOf g p.str = .ok e.word ∧ e.lines = p.lines

end Ppocr.Spec

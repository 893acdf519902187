import Verif.Model.Stream

/-!
# Replacements

`src/ppocr/ocr2/replacement.hpp` and `.cpp`: the search and replacement in the text of a line, and the reader of the
replacements. A string is the list of its bytes. Memory is not bounded: where the real program would grow its string until
`std::length_error` or `std::bad_alloc`, the model runs out of any fuel.
-/

namespace Ppocr

/-- `replacement.hpp` L28-31. -/
structure Rep where
  pattern : List Nat
  replace : List Nat
  deriving Repr, DecidableEq

/-- The first place of `p` in a string. -/
def findSub (p : List Nat) : List Nat → Option Nat
  | [] => if p.isEmpty then some 0 else none
  | c :: t => if p.isPrefixOf (c :: t) then some 0 else (findSub p t).map (· + 1)

/-- `s.find(p, pos)`; `none` is `npos`. -/
def strFind (s p : List Nat) (pos : Nat) : Option Nat :=
  if pos ≤ s.length then (findSub p (s.drop pos)).map (pos + ·) else none

/-- `s.replace(pos, n, r)`. It throws `std::out_of_range` behind the end. -/
def strReplace (s : List Nat) (pos n : Nat) (r : List Nat) : Res (List Nat) :=
  if pos ≤ s.length then .ok (s.take pos ++ r ++ s.drop (pos + n)) else .throw

/-- `replacement.hpp` L41-44, at most `fuel` passes. -/
def replaceLoop (rep : Rep) : Nat → List Nat → Nat → Res (List Nat)
  | 0, _, _ => .diverge
  | fuel + 1, s, pos =>
    match strFind s rep.pattern pos with
    | none => .ok s
    | some q => do
      let s' ← strReplace s q rep.pattern.length rep.replace
      replaceLoop rep fuel s' q

/-- `replacement.hpp` L39-46 `replace_words`, at most `fuel` passes for each replacement. -/
def replaceWords (fuel : Nat) (s : List Nat) : List Rep → Res (List Nat)
  | [] => .ok s
  | rep :: reps => do
    let s' ← replaceLoop rep fuel s 0
    replaceWords fuel s' reps

/-- `replacement.cpp` L28-36: the second word of an entry. `rep.replace` keeps its value at the end of the file. -/
def readReplace (s : IS) (old : List Nat) : List Nat × IS :=
  match s.rest with
  | [] => (old, s)
  | c :: _ => if c ≠ 10 then s.str old else ([], s)

/-- `replacement.cpp` L26-40, at most `fuel` passes. -/
def readReps : Nat → IS → Rep → List Rep → Res (List Rep × IS)
  | 0, _, _, _ => .diverge
  | fuel + 1, s, rep, acc =>
    if s.fail then .ok (acc, s)
    else
      let a := s.str rep.pattern
      let b := readReplace a.2 rep.replace
      let rep' : Rep := ⟨a.1, b.1⟩
      readReps fuel b.2 rep' (if b.2.fail then acc else acc ++ [rep'])

/-- `replacement.cpp` L23-42 `operator>>`. -/
def readReplacements (s : IS) (acc : List Rep) : Res (List Rep × IS) :=
  readReps (s.rest.length + 3) s ⟨[], []⟩ acc

end Ppocr

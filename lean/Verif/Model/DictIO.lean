import Verif.Model.Stream
import Verif.Model.Disambiguouser

/-!
# Dictionary files: `src/ppocr/spell/dictionary.cpp` L53-100, and `main/make_trie_dictionary.cpp`
-/

namespace Ppocr

/-- One pass of the loop of `operator<<`, `dictionary.cpp` L61-66. -/
def nodeWrite (f : FNode) : List Nat :=
  showNat f.x ++ 32 :: (showNat f.pos ++ 32 :: (showNat f.count ++ 32 :: (showBool f.term ++ [10])))

/-- `operator<<(std::ostream &, Dictionary const &)`, `dictionary.cpp` L58-69: what is written. -/
def dictWrite (E : List FNode) : List Nat := E.flatMap nodeWrite

/-- The variables of the loop of `operator>>`, `dictionary.cpp` L87-91. They are not initialised, but only used
after a successful extraction. -/
structure NodeVars where
  node : FNode
  e1 : Nat
  e2 : Nat
  e3 : Nat
  e4 : Nat
  deriving Repr, DecidableEq

/-- `is >> c >> e1 >> pos >> e2 >> sz >> e3 >> terminal >> e4`, `dictionary.cpp` L92. -/
def nodeRead (s : IS) : NodeVars × IS :=
  let (x, s) := s.uint (W32 - 1) 0
  let (e1, s) := s.char 0
  let (pos, s) := s.uint (W32 - 1) 0
  let (e2, s) := s.char 0
  let (sz, s) := s.uint (W32 - 1) 0
  let (e3, s) := s.char 0
  let (term, s) := s.bool false
  let (e4, s) := s.char 0
  (⟨⟨x, pos, sz, term⟩, e1, e2, e3, e4⟩, s)

/-- The test of `dictionary.cpp` L93. -/
def NodeVars.bad (v : NodeVars) : Bool := v.e1 != 32 || v.e2 != 32 || v.e3 != 32 || v.e4 != 10

/-- How the loop of `operator>>` ends: with the nodes read or by throwing. -/
inductive DictEnd
  | nodes (l : List FNode)
  | threw
  deriving Repr, DecidableEq

/-- The loop, `dictionary.cpp` L92-97; `acc` is the vector `nodes`. -/
def dictLoop : Nat → IS → List FNode → Res (DictEnd × IS)
  | 0, _, _ => .diverge
  | fuel + 1, s, acc =>
    let r := nodeRead s
    if r.2.fail then .ok (.nodes acc, r.2)
    else if r.1.bad then .ok (.threw, r.2)
    else dictLoop fuel r.2 (acc ++ [r.1.node])

/-- What is left after `operator>>(std::istream &, Dictionary &)`. -/
structure DictRead where
  /-- The exception "bad format" leaves the operator. -/
  threw : Bool
  dict : List FNode
  stream : IS
  deriving Repr, DecidableEq

/-- The assignment of L98, skipped by an exception. -/
def DictEnd.finish (old : List FNode) (s : IS) : DictEnd → DictRead
  | .nodes l => ⟨false, l, s⟩
  | .threw => ⟨true, old, s⟩

/-- `operator>>(std::istream &, Dictionary &)`, `dictionary.cpp` L71-100; `old` is the dictionary assigned to.
`Saver` unsets `skipws` and restores the flags when the function is left, also by the exception. -/
def dictRead (s : IS) (old : List FNode) : Res DictRead := do
  let r ← dictLoop (s.rest.length + 1) { s with ws := false } []
  return r.1.finish old { r.2 with ws := s.ws }

/-- `while (std::getline(file, s)) words.push_back(s);`, `make_trie_dictionary.cpp` L47-50. -/
def linesLoop : Nat → IS → List Nat → Res (List (List Nat))
  | 0, _, _ => .diverge
  | fuel + 1, s, str =>
    let r := s.getline str
    if r.2.fail then .ok []
    else do
      let l ← linesLoop fuel r.2 r.1
      return r.1 :: l

/-- The lines of a file. -/
def fileLines (text : List Nat) : Res (List (List Nat)) := linesLoop (text.length + 2) (IS.of text) []

/-- The loop over the arguments, `make_trie_dictionary.cpp` L40-51; an argument is the text of a file or `none`
if it cannot be opened. `file` is never closed: `isOpen` tells that a file was opened; then
`std::basic_filebuf::open` fails. -/
def wordsLoop : List (Option (List Nat)) → Bool → Res (List (List Nat))
  | [], _ => .ok []
  | none :: as, isOpen => wordsLoop as isOpen
  | some _ :: as, true => wordsLoop as true
  | some text :: as, false => do
    let l ← fileLines text
    let r ← wordsLoop as true
    return l ++ r

/-- `main` of `make_trie_dictionary.cpp` L31-54: what is written on the standard output. -/
def makeTrie (S : StdSort) (args : List (Option (List Nat))) : Res (List Nat) := do
  let words ← wordsLoop args false
  let E ← dictOf S words
  return dictWrite E

end Ppocr

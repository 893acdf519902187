import Verif.Model.Trie

/-!
# `src/ppocr/spell/word_disambiguouser.hpp`

A candidate is the memory behind `s.data()`. A table gives the candidates of each position. The output is a
string of bytes.
-/

namespace Ppocr

/-- The bytes appended by `s += c` for a `char const *`: up to the first zero. -/
def cString (l : List Nat) : List Nat := l.takeWhile (· ≠ 0)

/-- `set_c`, `word_disambiguouser.hpp` L86-95. -/
def setC (out : List Nat) (code : Nat) : List Nat :=
  out ++ cString [code &&& 0x000000FF, (code &&& 0x0000FF00) >>> 8, (code &&& 0x00FF0000) >>> 16,
    (code &&& 0xFF000000) >>> 24, 0]

/-- The loop over the candidates of a position, `word_disambiguouser.hpp` L49-54. -/
def tryCands (f : List Nat → List Nat → Res (Bool × List Nat)) :
    List (List Nat) → List Nat → Res (Bool × List Nat)
  | [], out => .ok (false, out)
  | s :: ss, out => do
    let r ← f s out
    if r.1 then .ok r else tryCands f ss r.2

/-- `disambiguous_utf_char`, `word_disambiguouser.hpp` L57-84. `c` and `pos` are the iterator over the
candidate `src`; `isLast` tells that `next_first == last`; `next` is `disambiguous_impl` from `next_first`. -/
def utfChar (E : List FNode) (isLast : Bool) (next : FRange → List Nat → Res (Bool × List Nat))
    (src : List Nat) : Nat → FRange → Nat → Nat → List Nat → Res (Bool × List Nat)
  | 0, _, _, _, _ => .diverge
  | fuel + 1, rng, c, pos, out => do
    match ← findNode E rng c with
    | none => .ok (false, out)
    | some p => do
      let f ← rd E p
      if isLast then
        .ok (if f.term then (true, setC out c) else (false, out))
      else if f.count = 0 then .ok (false, out)
      else do
        let q ← utf8Next src pos
        let rng' ← kidsRange E p
        let r ← (if q.1 = 0 then next rng' out else utfChar E isLast next src fuel rng' q.1 q.2 out)
        return if r.1 then (true, setC r.2 c) else r

/-- `disambiguous_impl`, `word_disambiguouser.hpp` L46-55; it is never called at the end of the table. -/
def disImpl (E : List FNode) : List (List (List Nat)) → FRange → List Nat → Res (Bool × List Nat)
  | [], _, _ => .ub
  | cands :: rest, rng, out =>
    tryCands (fun s out => do
      let q ← utf8Next s 0
      utfChar E rest.isEmpty (disImpl E rest) s (s.length + 1) rng q.1 q.2 out) cands out

/-- `WordDisambiguouser::operator()`, `word_disambiguouser.hpp` L32-44: the result and the output. The
`swap_ranges` of the first half of the new bytes with the reversed string reverses the new bytes. -/
def disambiguous (E : List FNode) (table : List (List (List Nat))) (out : List Nat) :
    Res (Bool × List Nat) :=
  if table = [] ∨ E = [] then .ok (false, out)
  else do
    let rng ← rootRange E
    let r ← disImpl E table rng out
    return if r.1 then (true, r.2.take out.length ++ (r.2.drop out.length).reverse) else r

end Ppocr

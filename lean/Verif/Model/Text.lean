import Verif.Model.Glyphs
import Verif.Model.Disambiguouser

/-!
# Assembling the text

`src/ppocr/ocr2/disambiguous_with_dict.cpp`. The candidate lists are only read, so an `ambiguous_t` is the list of
the lists that it refers to. Iterators are positions. A dictionary is the array of its trie.
-/

namespace Ppocr

/-- The memory from `get_word_(i).data()` on, as far as it was written; reading further is undefined. -/
def wordMem (b : List (Option Nat)) (i : Nat) : List Nat :=
  ((b.drop (4 * i + 4)).takeWhile Option.isSome).filterMap id

/-- The characters of the test, `disambiguous_with_dict.cpp` L61-87. -/
def isPunct (c : Nat) : Bool :=
  c ∈ [33, 35, 36, 37, 38, 39, 40, 41, 42, 43, 44, 45, 46, 58, 59, 60, 61, 62, 63, 91, 93, 123, 125]

/-- `search_fn`, `disambiguous_with_dict.cpp` L54-90. -/
def searchFn (g : RGlyphs) : List View → Res Bool
  | [] => .ok true
  | v :: _ => do
    let n ← wordSize g.buf v.word
    if n = 1 then do
      let c ← rdByte g.buf (4 * v.word + 4)
      return isPunct c
    else return false

/-- `std::find_if` (for `want` true) and `std::find_if_not`: the number of elements before the one found. -/
def findFirst (g : RGlyphs) (want : Bool) : List (List View) → Res Nat
  | [] => .ok 0
  | l :: ls => do
    let b ← searchFn g l
    if b = want then return 0
    else do
      let n ← findFirst g want ls
      return n + 1

/-- The words met by `range_string_iterator`, `disambiguous_with_dict.cpp` L109-145: repetitions are skipped. -/
def stepWords : List View → List Nat
  | [] => []
  | [v] => [v.word]
  | v :: u :: l => if v.word = u.word then stepWords (u :: l) else v.word :: stepWords (u :: l)

/-- `append(result, glyphs, list)` on each list of a range, `disambiguous_with_dict.cpp` L32-41. -/
def appendFirsts (g : RGlyphs) : List (List View) → List Nat → Res (List Nat)
  | [], out => .ok out
  | [] :: ls, out => appendFirsts g ls out
  | (v :: _) :: ls, out => do
    let s ← getWord g.buf v.word
    appendFirsts g ls (out ++ s)

/-- The loop over unrecognised letters and punctuation, `disambiguous_with_dict.cpp` L192-203: the text, the counter and
the number of letters passed. -/
def sepLoop (g : RGlyphs) : List (List View) → List Nat → Nat → Res (List Nat × Nat × Nat)
  | [], out, cnt => .ok (out, cnt, 0)
  | [] :: ls, out, cnt => do
    let r ← sepLoop g ls (out ++ [63]) (uadd cnt 1)
    return (r.1, r.2.1, r.2.2 + 1)
  | (v :: l) :: ls, out, cnt => do
    let b ← searchFn g (v :: l)
    if b then do
      let s ← getWord g.buf v.word
      let r ← sepLoop g ls (out ++ s) cnt
      return (r.1, r.2.1, r.2.2 + 1)
    else return (out, cnt, 0)

/-- The letters of a word, `disambiguous_with_dict.cpp` L184-190. -/
def runStep (g : RGlyphs) (E : List FNode) (run : List (List View)) (out : List Nat) : Res (List Nat) := do
  let r ← disambiguous E (run.map fun l => (stepWords l).map (wordMem g.buf)) out
  if r.1 then return r.2 else appendFirsts g run r.2

/-- The main loop, `disambiguous_with_dict.cpp` L178-210. -/
def textLoop (g : RGlyphs) (E : List FNode) (amb : List (List View)) :
    Nat → Nat → List Nat → List Nat → Nat → Res (List Nat × Nat)
  | 0, _, _, _, _ => .diverge
  | fuel + 1, first, spaces, out, cnt =>
    if first = amb.length then .ok (out, cnt)
    else
      match spaces with
      | [] => .ub
      | e :: rest =>
        if amb.length < e then .ub
        else do
          assert (decide (first < e))
          let n ← findFirst g true ((amb.take e).drop first)
          let out ← runStep g E ((amb.drop first).take n) out
          let q ← sepLoop g ((amb.take e).drop (first + n)) out cnt
          let middle := first + n + q.2.2
          if middle = e ∧ e ≠ amb.length then textLoop g E amb fuel middle rest (q.1 ++ [32]) q.2.1
          else textLoop g E amb fuel middle (e :: rest) q.1 q.2.1

/-- `disambiguous_with_dict`, `disambiguous_with_dict.cpp` L44-213: the text and the number of unrecognised letters.
`spaces` are the values from `it_space` on. -/
def disambiguousWithDict (g : RGlyphs) (E : List FNode) (amb : List (List View)) (spaces : List Nat) :
    Res (List Nat × Nat) :=
  match spaces with
  | [] => .ub
  | e :: rest =>
    if amb.length < e then .ub
    else do
      let n ← findFirst g false (amb.take e)
      let out ← appendFirsts g (amb.take n) []
      textLoop g E amb (amb.length + 1) n (if n = e then rest else e :: rest) out 0

end Ppocr

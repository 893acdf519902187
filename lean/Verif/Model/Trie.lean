import Verif.Model.Std
import Verif.Model.Utf

/-!
# `src/ppocr/container/trie.hpp` and the constructor of `src/ppocr/spell/dictionary.cpp`
-/

namespace Ppocr

/-- `container::trie<uint32_t>`, `trie.hpp` L29-116: its vector of nodes, as a list whose elements carry
their own vector of children. `node x term kids next` is a vector with a first node of value `x` and
children `kids`, followed by the nodes of `next`. -/
inductive Trie
  | nil
  | node (x : Nat) (term : Bool) (kids next : Trie)
  deriving Repr, DecidableEq

/-- `trie::node_type`, `trie.hpp` L32-64. -/
structure TNode where
  x : Nat
  term : Bool
  kids : Trie

/-- The range `begin()..end()` of a trie, `trie.hpp` L100-101. -/
def Trie.nodes : Trie → List TNode
  | nil => []
  | node x b k n => ⟨x, b, k⟩ :: n.nodes

/-- `trie::size`, `trie.hpp` L102. -/
def Trie.size (t : Trie) : Nat := t.nodes.length

/-- The number of nodes at all levels; only used to bound loops. -/
def Trie.count : Trie → Nat
  | nil => 0
  | node _ _ k n => 1 + k.count + n.count

/-- The children to insert below a new node, `trie.hpp` L92-95: `first` has moved if it ends here. Moving it
behind `middle` would run past the end of the range. -/
def groupTail (term : Bool) (group : List (List Nat)) : Res (List (List Nat)) :=
  if term then
    match group with
    | [] => .ub
    | _ :: g => .ok g
  else .ok group

/-- The comparison of the `upper_bound`, `trie.hpp` L87-89: `depth < s.size() && c < s[depth]`. -/
def aboveAt (depth c : Nat) (s : List Nat) : Bool :=
  match s[depth]? with
  | some d => decide (c < d)
  | none => false

/-- `trie::insert_after`, `trie.hpp` L81-98, on an empty vector of nodes. `(*first)[depth]` behind the end of
the word is undefined behaviour. -/
def insertAfter : Nat → List (List Nat) → Nat → Res Trie
  | 0, _, _ => .diverge
  | _ + 1, [], _ => .ok .nil
  | fuel + 1, w :: ws, depth => do
    let c ← rd w depth
    let k ← partitionPoint (fun k => do
      let s ← rd (w :: ws) k
      return !aboveAt depth c s) (ws.length + 2) 0 (ws.length + 1)
    let term := decide (depth + 1 = w.length)
    let g ← groupTail term ((w :: ws).take k)
    let kids ← insertAfter fuel g (depth + 1)
    let next ← insertAfter fuel ((w :: ws).drop k) depth
    return .node c term kids next

/-- The constructor `trie(first, last)`, `trie.hpp` L75-79; the fuel exceeds what a sorted range needs. -/
def trieOf (ws : List (List Nat)) : Res Trie :=
  insertAfter ((ws.map fun w => w.length + 1).sum + 1) ws 0

/-- `flat_trie::node_type`, `trie.hpp` L149-188. -/
structure FNode where
  x : Nat
  pos : Nat
  count : Nat
  term : Bool
  deriving Repr, DecidableEq

/-- Its constructor from a node of a trie, `trie.hpp` L155-159 and L182: `pos_` is 0 and the count is
converted to `unsigned`. -/
def FNode.ofNode (n : TNode) : FNode := ⟨n.x, 0, n.kids.size % W32, n.term⟩

/-- `elems_[pos].pos_ = v`. -/
def setPos (E : List FNode) (i v : Nat) : Res (List FNode) := do
  let f ← rd E i
  return E.set i { f with pos := v }

/-- One pass of the inner loop, `trie.hpp` L232-240: `q` is `ptries2`. The test `!t.empty()` only saves
empty insertions. `sz-pos` is converted to `unsigned`. -/
def flatLevel : List Trie → List FNode → List Trie → Nat → Res (List FNode × List Trie × Nat)
  | [], E, q, pos => .ok (E, q, pos)
  | t :: ts, E, q, pos => do
    let E' ← setPos E pos ((E.length - pos) % W32)
    flatLevel ts (E' ++ t.nodes.map FNode.ofNode) (q ++ t.nodes.map TNode.kids) (pos + 1)

/-- The outer loop, `trie.hpp` L231-244. -/
def flatLoop : Nat → List Trie → List FNode → Nat → Res (List FNode)
  | 0, _, _, _ => .diverge
  | _ + 1, [], E, _ => .ok E
  | fuel + 1, t :: ts, E, pos => do
    let r ← flatLevel (t :: ts) E [] pos
    flatLoop fuel r.2.1 r.1 r.2.2

/-- `flat_trie(trie const &)`, `trie.hpp` L222-247: the vector `elems_`. -/
def flatTrie (t : Trie) : Res (List FNode) :=
  flatLoop (t.count + 1) (t.nodes.map TNode.kids) (t.nodes.map FNode.ofNode) 0

/-- A `flat_trie::range`: the index of its first node and its size. -/
abbrev FRange := Nat × Nat

/-- A pointer range inside the vector `E`; a range that leaves it is undefined behaviour. -/
def mkRange (E : List FNode) (lo n : Nat) : Res FRange :=
  if lo + n ≤ E.length then .ok (lo, n) else .ub

/-- `flat_trie::childrens`, `trie.hpp` L249-255; `elems_[0]` on an empty vector is undefined behaviour. -/
def rootRange (E : List FNode) : Res FRange := do
  let f ← rd E 0
  mkRange E 0 f.pos

/-- `flat_trie::node_type::childrens`, `trie.hpp` L168-170, for the node at index `i`. -/
def kidsRange (E : List FNode) (i : Nat) : Res FRange := do
  let f ← rd E i
  mkRange E (i + f.pos) f.count

/-- `flat_trie::range::lower_bound`, `trie.hpp` L137-142. -/
def lowerBound (E : List FNode) (r : FRange) (c : Nat) : Res Nat :=
  partitionPoint (fun k => do
    let f ← rd E k
    return decide (f.x < c)) (r.2 + 1) r.1 r.2

/-- The index of the node of value `c` in a range, found as `word_disambiguouser.hpp` L60-61 does:
`lower_bound`, then `pos != rng.end() && pos->get() == c`. -/
def findNode (E : List FNode) (r : FRange) (c : Nat) : Res (Option Nat) := do
  let p ← lowerBound E r c
  if p = r.1 + r.2 then .ok none
  else do
    let f ← rd E p
    return if f.x = c then some p else none

/-- Descending a flat trie along a word, as a client does: the node reached, if any. -/
def flatDescend (E : List FNode) : FRange → List Nat → Res (Option FNode)
  | _, [] => .ok none
  | r, [c] => do
    match ← findNode E r c with
    | none => .ok none
    | some p => do
      let f ← rd E p
      return some f
  | r, c :: d :: cs => do
    match ← findNode E r c with
    | none => .ok none
    | some p => do
      let r' ← kidsRange E p
      flatDescend E r' (d :: cs)

/-- `std::vector<uint32_t>::operator<`: lexicographic. -/
def wordLt : List Nat → List Nat → Bool
  | _, [] => false
  | [], _ :: _ => true
  | a :: as, b :: bs => decide (a < b) || (decide (a = b) && wordLt as bs)

/-- The codes of a `std::string`: its bytes are followed by a 0. -/
def wordCodes (w : List Nat) : Res (List Nat) := do
  let r ← utfCodes utf8Next (w ++ [0])
  return r.1

/-- The codes of all the words, `dictionary.cpp` L38-46. -/
def allCodes : List (List Nat) → Res (List (List Nat))
  | [] => .ok []
  | w :: ws => do
    let c ← wordCodes w
    let r ← allCodes ws
    return c :: r

/-- `Dictionary(std::vector<std::string> const &)`, `dictionary.cpp` L36-51. -/
def dictOf (S : StdSort) (words : List (List Nat)) : Res (List FNode) := do
  let uwords ← allCodes words
  let uwords ← uniqueBy (fun a b => .ok (decide (a = b))) (S.sort wordLt uwords)
  let t ← trieOf uwords
  flatTrie t

end Ppocr

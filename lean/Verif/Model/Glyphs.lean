import Verif.Model.Stream
import Verif.Model.Trie
import Verif.Model.Ocr2

/-!
# Glyph files as the recogniser sees them

`src/ppocr/ocr2/glyphs.cpp` and `src/ppocr/ocr2/glyphs.hpp` L51-90.
-/

namespace Ppocr

/-- `std::map<std::string, unsigned>`: its elements in the order of the keys. -/
abbrev StrMap := List (List Nat × Nat)

/-- `std::map::find`. -/
def mapFind : StrMap → List Nat → Option Nat
  | [], _ => none
  | (k, v) :: m, w => if k = w then some v else mapFind m w

/-- `std::map::emplace` of an absent key. -/
def mapInsert : StrMap → List Nat → Nat → StrMap
  | [], w, n => [(w, n)]
  | (k, v) :: m, w, n => if wordLt w k then (w, n) :: (k, v) :: m else (k, v) :: mapInsert m w n

/-- `find`, then `emplace(…, map.size())` if absent, `glyphs.cpp` L47-51 and L53-57: the number of the string and
the new map. -/
def intern (m : StrMap) (w : List Nat) : Nat × StrMap :=
  match mapFind m w with
  | some i => (i, m)
  | none => (m.length % W32, mapInsert m w (m.length % W32))

/-- `while (i < n && (is >> word >> font).ignore(limit_max, '\n'))`, `glyphs.cpp` L46-60, with `n - i` passes to
go: the elements of `views` from `i` on. What `word` and `font` held before is never used. -/
def rviewsLoop : Nat → IS → StrMap → StrMap → List View × IS × StrMap × StrMap
  | 0, s, wm, fm => ([], s, wm, fm)
  | n + 1, s, wm, fm =>
    let (w, s) := s.str []
    let (f, s) := s.str []
    let s := s.ignore 10
    if s.fail then (List.replicate (n + 1) ⟨0, 0⟩, s, wm, fm)
    else
      let (i, wm) := intern wm w
      let (j, fm) := intern fm f
      let (vs, s, wm, fm) := rviewsLoop n s wm fm
      (⟨i, j⟩ :: vs, s, wm, fm)

/-- `glyphs.cpp` L37-63. -/
def rglyphsLoop : Nat → IS → StrMap → StrMap → List (List View) → Res (List (List View) × IS × StrMap × StrMap)
  | 0, _, _, _, _ => .diverge
  | fuel + 1, s, wm, fm, acc =>
    let s := s.ignore 10
    if s.fail then .ok (acc, s, wm, fm)
    else
      let (n, s) := s.uint (W32 - 1) 0
      if s.fail then .ok (acc, s, wm, fm)
      else
        let (vs, s, wm, fm) := rviewsLoop n s wm fm
        rglyphsLoop fuel s wm fm (acc ++ [vs])

/-- The number of `unsigned`s of a word without its size, `glyphs.cpp` L71 and L87. -/
def wordUnits (n : Nat) : Nat := (n + 4 - 1) / 4

/-- `v[i] = x` on a vector or an array. -/
def wr {α : Type} (l : List α) (i : Nat) (x : α) : Res (List α) := if i < l.length then .ok (l.set i x) else .ub

/-- `glyphs.cpp` L69-72: `reindex` and `buf_word_sz`. -/
def reindexLoop : StrMap → List Nat → Nat → Res (List Nat × Nat)
  | [], v, sz => .ok (v, sz)
  | (w, i) :: m, v, sz => do
    let v ← wr v i sz
    reindexLoop m v ((sz + (wordUnits w.length + 1)) % W32)

/-- The views of a glyph, `glyphs.cpp` L75-77. -/
def reindexViews (v : List Nat) : List View → Res (List View)
  | [] => .ok []
  | x :: vs => do
    let n ← rd v x.word
    let r ← reindexViews v vs
    return ⟨n, x.font⟩ :: r

/-- All glyphs, `glyphs.cpp` L74-78. -/
def reindexAll (v : List Nat) : List (List View) → Res (List (List View))
  | [] => .ok []
  | g :: gs => do
    let h ← reindexViews v g
    let r ← reindexAll v gs
    return h :: r

/-- Writing bytes from an offset on. -/
def wrAll (b : List (Option Nat)) : Nat → List Nat → Res (List (Option Nat))
  | _, [] => .ok b
  | i, c :: cs => do
    let b ← wr b i (some c)
    wrAll b (i + 1) cs

/-- The bytes of an `unsigned`, little endian. -/
def le4 (n : Nat) : List Nat := [n % 256, n / 256 % 256, n / 65536 % 256, n / 16777216 % 256]

/-- `glyphs.cpp` L81-88: the bytes of `buf_word`; `none` is a byte never written. `p` is the position of `buf`, in
`unsigned`s. -/
def fillWords : StrMap → List (Option Nat) → Nat → Res (List (Option Nat))
  | [], b, _ => .ok b
  | (w, _) :: m, b, p => do
    let b ← wrAll b (4 * p) (le4 w.length)
    let b ← wrAll b (4 * (p + 1)) w
    let b ← wr b (4 * (p + 1) + w.length) (some 0)
    fillWords m b (p + 1 + wordUnits w.length)

/-- `ocr2::Glyphs`, `glyphs.hpp` L43-90. -/
structure RGlyphs where
  views : List (List View)
  buf : List (Option Nat)
  bufSz : Nat
  deriving Repr, DecidableEq

/-- `glyphs.cpp` L65-92: the second half of `operator>>`. -/
def finishGlyphs (gs : List (List View)) (wm : StrMap) : Res RGlyphs := do
  let r ← reindexLoop wm (List.replicate wm.length 0) 0
  let gs ← reindexAll r.1 gs
  let b ← fillWords wm (List.replicate (4 * r.2) none) 0
  return ⟨gs, b, r.2⟩

/-- `operator>>(std::istream &, Glyphs &)`, `glyphs.cpp` L29-95; `old` are the glyphs already there. -/
def rglyphsRead (s : IS) (old : List (List View)) : Res (RGlyphs × IS) := do
  let r ← rglyphsLoop (s.rest.length + 1) s [] [] old
  let g ← finishGlyphs r.1 r.2.2.1
  return (g, r.2.1)

/-- Reading a byte that must have been written. -/
def rdByte (b : List (Option Nat)) (i : Nat) : Res Nat := do
  match ← rd b i with
  | some c => .ok c
  | none => .ub

/-- Reading `n` bytes from an offset on. -/
def rdBytes (b : List (Option Nat)) : Nat → Nat → Res (List Nat)
  | _, 0 => .ok []
  | i, n + 1 => do
    let c ← rdByte b i
    let r ← rdBytes b (i + 1) n
    return c :: r

/-- `get_word_(i).size()`, `glyphs.hpp` L58, L86-87. -/
def wordSize (b : List (Option Nat)) (i : Nat) : Res Nat := do
  let c0 ← rdByte b (4 * i)
  let c1 ← rdByte b (4 * i + 1)
  let c2 ← rdByte b (4 * i + 2)
  let c3 ← rdByte b (4 * i + 3)
  return c0 + 256 * c1 + 65536 * c2 + 16777216 * c3

/-- `get_word_(i)`, `glyphs.hpp` L86-87, as the string from `begin()` to `end()`, L56-57. -/
def getWord (b : List (Option Nat)) (i : Nat) : Res (List Nat) := do
  let n ← wordSize b i
  rdBytes b (4 * i + 4) n

/-- `std::memcmp` of a string with memory: its sign. It may not look at bytes never written. -/
def memCmp : List Nat → List (Option Nat) → Res Int
  | [], _ => .ok 0
  | _ :: _, [] => .ub
  | _ :: _, none :: _ => .ub
  | c :: s, some d :: m => if c < d then .ok (-1) else if d < c then .ok 1 else memCmp s m

/-- `s.compare(0, s.size(), get_word_(i).data(), s.size())`, `glyphs.hpp` L70: `s.size()` bytes of the memory behind
the size must exist. -/
def wordCompare (b : List (Option Nat)) (s : List Nat) (i : Nat) : Res Int :=
  if 4 * i + 4 + s.length ≤ b.length then memCmp s (b.drop (4 * i + 4)) else .ub

/-- `Glyphs::no_index`, `glyphs.hpp` L65. -/
def noIndex : Nat := W32 - 1

/-- The loop of `Glyphs::word_index_of`, `glyphs.hpp` L69-78. -/
def wordIndexLoop (g : RGlyphs) (s : List Nat) : Nat → Nat → Res Nat
  | 0, _ => .diverge
  | fuel + 1, i =>
    if i < g.bufSz then do
      let r ← wordCompare g.buf s i
      if r ≤ 0 then (if r = 0 then .ok i else .ok noIndex)
      else do
        let n ← wordSize g.buf i
        wordIndexLoop g s fuel ((i + (n + 4 * 2 - 1) / 4) % W32)
    else .ok noIndex

/-- `Glyphs::word_index_of`, `glyphs.hpp` L67-80. -/
def wordIndexOf (g : RGlyphs) (s : List Nat) : Res Nat := wordIndexLoop g s (g.bufSz + 1) 0

end Ppocr

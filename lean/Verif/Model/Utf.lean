import Verif.Basic

/-!
# `src/ppocr/utils/utf.hpp`

A source is the memory behind the pointer: a list of bytes, each a natural number below 256. An iterator is
the position of its `source` pointer and its `ucode`. Reading behind the list is undefined behaviour.
-/

namespace Ppocr

/-- `UTF8toUnicodeIterator::operator++` after the first read, `utf.hpp` L43-66. The `switch` covers the
sixteen values of the four upper bits. -/
def unicodeTail (src : List Nat) (u p : Nat) : Res (Nat × Nat) :=
  if u >>> 4 ≤ 7 then .ok (u, p)
  else if u >>> 4 = 0xC ∨ u >>> 4 = 0xD then do
    let a ← rd src p
    return (((u &&& 0x1F) <<< 6) ||| (a &&& 0x3F), p + 1)
  else if u >>> 4 = 0xE then do
    let a ← rd src p
    let b ← rd src (p + 1)
    return (((u &&& 0x0F) <<< 12) ||| ((a &&& 0x3F) <<< 6) ||| (b &&& 0x3F), p + 2)
  else if u >>> 4 = 0xF then do
    let a ← rd src p
    let b ← rd src (p + 1)
    let c ← rd src (p + 2)
    return (((u &&& 0x07) <<< 18) ||| ((a &&& 0x3F) <<< 12) ||| ((b &&& 0x3F) <<< 6) ||| (c &&& 0x3F), p + 3)
  else .ok (0, p)

/-- `UTF8toUnicodeIterator::operator++`, `utf.hpp` L39-68: the new `ucode` and `source`. The constructors
(L31-37) do the same from the start of the string. -/
def unicodeNext (src : List Nat) (pos : Nat) : Res (Nat × Nat) := do
  let u ← rd src pos
  unicodeTail src u (pos + 1)

/-- `UTF8Iterator::operator++` after the first read, `utf.hpp` L98-121. -/
def utf8Tail (src : List Nat) (u p : Nat) : Res (Nat × Nat) :=
  if u >>> 4 ≤ 7 then .ok (u, p)
  else if u >>> 4 = 0xC ∨ u >>> 4 = 0xD then do
    let a ← rd src p
    return ((u <<< 8) ||| a, p + 1)
  else if u >>> 4 = 0xE then do
    let a ← rd src p
    let b ← rd src (p + 1)
    return ((u <<< 16) ||| (a <<< 8) ||| b, p + 2)
  else if u >>> 4 = 0xF then do
    let a ← rd src p
    let b ← rd src (p + 1)
    let c ← rd src (p + 2)
    return ((u <<< 24) ||| (a <<< 16) ||| (b <<< 8) ||| c, p + 3)
  else .ok (0, p)

/-- `UTF8Iterator::operator++`, `utf.hpp` L94-123; the constructors are L86-92. -/
def utf8Next (src : List Nat) (pos : Nat) : Res (Nat × Nat) := do
  let u ← rd src pos
  utf8Tail src u (pos + 1)

/-- The loop `for (uint32_t c; (c = *it); ++it)`, `dictionary.cpp` L41-44: the codes before the first 0 and
the final position of `source`. `pos` is the position before the next `++`. -/
def utfCollect (next : List Nat → Nat → Res (Nat × Nat)) (src : List Nat) : Nat → Nat → Res (List Nat × Nat)
  | 0, _ => .diverge
  | fuel + 1, pos => do
    let r ← next src pos
    if r.1 = 0 then .ok ([], r.2)
    else do
      let q ← utfCollect next src fuel r.2
      return (r.1 :: q.1, q.2)

/-- All the codes of a string. -/
def utfCodes (next : List Nat → Nat → Res (Nat × Nat)) (src : List Nat) : Res (List Nat × Nat) :=
  utfCollect next src (src.length + 1) 0

end Ppocr

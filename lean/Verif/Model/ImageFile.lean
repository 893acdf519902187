import Verif.Model.Image

/-!
# Reading an image file

Model of `src/ppocr/image/image_from_file.cpp`.

Pointers into the file buffer are represented by the list of bytes from the pointer to the end of
the buffer; `p == end` is the empty list and reading through such a pointer is `ub`.
-/

namespace Ppocr

/-- One answer of the kernel to `read(2)` while data remain: fail with -1, or deliver some bytes.
The number is clamped to what POSIX allows (at least one, at most what was asked and what is left). -/
inductive ReadEv where
  | error
  | some (n : Nat)
  deriving Repr, DecidableEq

/-- The loop of `read_all` (image_from_file.cpp L93-108).  `content` are the bytes still available
from the file descriptor, `remaining` the space left in the buffer, `acc` the bytes stored so far,
`sched` the kernel's answers; after the end of the list the kernel delivers everything it can.
`read` returns 0 at end of file or when asked for 0 bytes: this ends the loop (so the branch
L98-101 is unreachable).  A buffer cell that was never stored is `none`. -/
def readLoop : List ReadEv → List UInt8 → Nat → List UInt8 → Res (List (Option UInt8))
  | [], content, remaining, acc =>
    let n := min remaining content.length
    .ok ((acc ++ content.take n).map some ++ List.replicate (remaining - n) none)
  | ev :: sched, content, remaining, acc =>
    if remaining = 0 ∨ content = [] then
      .ok (acc.map some ++ List.replicate remaining none)
    else
      match ev with
      | .error => .throw
      | .some k =>
        let n := max 1 (min k (min remaining content.length))
        readLoop sched (content.drop n) (remaining - n) (acc ++ content.take n)

/-- The environment of `read_all`: `open`/`fstat` may fail, `st_size` may be negative, and the
content may have changed size since. -/
structure FileEnv where
  openOk : Bool
  statOk : Bool
  size : Int
  content : List UInt8
  sched : List ReadEv
  deriving Repr, DecidableEq

/-- `read_all` (image_from_file.cpp L75-109). -/
def readAll (e : FileEnv) : Res (List (Option UInt8)) :=
  if !e.openOk then .throw
  else if !e.statOk then .throw
  else if e.size < 0 then .throw
  else readLoop e.sched e.content e.size.toNat []

/-- `struct PnmHeader` (image_from_file.cpp L111-117); `rest` is `end_ptr`. -/
structure PnmHeader where
  type : UInt8
  width : Nat
  height : Nat
  maxValue : Nat
  rest : List UInt8
  deriving Repr, DecidableEq

/-- Skipping comments (image_from_file.cpp L142-154).  The flag tells whether the pointer is inside
a comment line. -/
def skipComments : Bool → List UInt8 → List UInt8
  | false, [] => []
  | false, c :: t => if c = 35 then skipComments true t else c :: t
  | true, [] => []
  | true, c :: t => if c = 10 then skipComments false t else skipComments true t

/-- ASCII digit. -/
def isDigit (c : UInt8) : Bool := decide (48 ≤ c.toNat) && decide (c.toNat ≤ 57)

/-- Digits consumed by `std::from_chars` and what follows. -/
def spanDigits : List UInt8 → List UInt8 × List UInt8
  | [] => ([], [])
  | c :: t =>
    if isDigit c then ((c :: (spanDigits t).1), (spanDigits t).2) else ([], c :: t)

/-- Value of a digit string, most significant first. -/
def digitsVal (l : List UInt8) : Nat := l.foldl (fun n c => n * 10 + (c.toNat - 48)) 0

/-- `std::from_chars(p, end, unsigned&)`, base 10: no sign, no blanks; error when there is no digit
or when the value does not fit. -/
def fromChars (p : List UInt8) : Option (Nat × List UInt8) :=
  let (d, r) := spanDigits p
  if d = [] then none
  else if digitsVal d < W32 then some (digitsVal d, r) else none

/-- The lambda `consume_uint` (image_from_file.cpp L159-173). -/
def consumeUint (p : List UInt8) (next : UInt8) : Option (Nat × List UInt8) :=
  match fromChars p with
  | none => none
  | some (n, r) =>
    match r with
    | [] => none
    | c :: t => if c = next then some (n, t) else none

/-- `PnmHeader::parse` (image_from_file.cpp L119-190). -/
def parseHeader (buf : List UInt8) : Option PnmHeader :=
  if buf.length < 9 then none
  else
    match buf with
    | p0 :: ty :: p2 :: p =>
      if p0 ≠ 80 ∨ (ty.toNat < 49 ∨ ty.toNat > 54) ∨ p2 ≠ 10 then none
      else
        match consumeUint (skipComments false p) 32 with
        | none => none
        | some (w, p) =>
          match consumeUint p 10 with
          | none => none
          | some (h, p) =>
            if ty ≠ 49 ∧ ty ≠ 52 then
              match consumeUint p 10 with
              | none => none
              | some (m, p) => some ⟨ty, w, h, m, p⟩
            else some ⟨ty, w, h, 0, p⟩
    | _ => none

/-- The `unsigned char c` of the P6 branch (image_from_file.cpp L233-236). -/
def luma (r g b : UInt8) : Nat :=
  ((511 * r.toNat + 511) / 1024 + (396 * g.toNat + 511) / 1024 + (117 * b.toNat + 511) / 1024) % 256

/-- P6 loop (image_from_file.cpp L232-238). -/
def decodeP6 (lum : Nat) : List UInt8 → Out Pixel → Res (Out Pixel)
  | [], o => .ok o
  | r :: g :: b :: t, o => do
    let o ← o.push (if luma r g b < lum then chDash else chX)
    decodeP6 lum t o
  | _, _ => .ub

/-- `if (i % 8 == 0) c = *p++;` (image_from_file.cpp L250-252). -/
def fetchP4 (i c : Nat) (p : List UInt8) : Res (Nat × List UInt8) :=
  if i % 8 = 0 then
    match p with
    | [] => .ub
    | b :: t => .ok (b.toNat, t)
  else .ok (c, p)

/-- Inner P4 loop over the columns of a row (image_from_file.cpp L249-256); `i` is the `int`
counter (incrementing it past `INT_MAX` is undefined), `c` the shifted byte, `n` the columns left. -/
def decodeP4Row : Nat → Nat → Nat → List UInt8 → Out Pixel → Res (List UInt8 × Out Pixel)
  | 0, _, _, p, o => .ok (p, o)
  | n + 1, i, c, p, o => do
    let (c, p) ← fetchP4 i c p
    let o ← o.push (if c / 128 % 2 = 1 then chDash else chX)
    if i = 2147483647 then .ub
    else decodeP4Row n (i + 1) (umul c 2) p o

/-- Outer P4 loop (image_from_file.cpp L246-257). -/
def decodeP4 (w : Nat) : Nat → List UInt8 → Out Pixel → Res (Out Pixel)
  | 0, _, o => .ok o
  | n + 1, p, o => do
    let (p, o) ← decodeP4Row w 0 0 p o
    decodeP4 w n p o

/-- The `for` loop of the ASCII branch (image_from_file.cpp L261-284).  On `break` the pointer still
designates the digit just read. -/
def decodeAscii (imgSize : Nat) : List UInt8 → Nat → Out Pixel → Res (List UInt8 × Out Pixel)
  | [], _, o => .ok ([], o)
  | c :: t, k, o =>
    if c = 32 then decodeAscii imgSize t k o
    else if c = 48 then do
      let o ← o.push chDash
      if k + 1 = imgSize then .ok (c :: t, o) else decodeAscii imgSize t (k + 1) o
    else if c = 49 then do
      let o ← o.push chX
      if k + 1 = imgSize then .ok (c :: t, o) else decodeAscii imgSize t (k + 1) o
    else if c = 10 then decodeAscii imgSize t k o
    else .throw

/-- "skip blank" (image_from_file.cpp L287-288). -/
def skipBlank : List UInt8 → List UInt8
  | [] => []
  | c :: t => if c = 32 ∨ c = 10 then skipBlank t else c :: t

/-- Size check of the P4 branch, in 32-bit arithmetic (image_from_file.cpp L242). -/
def p4Len (w h : Nat) : Nat := umul (uadd w 7 / 8) h

/-- The part of `image_from_file` after `read_all` (image_from_file.cpp L200-298).
Allocation failure of `new Pixel[img_size]` is not modelled. -/
def imageFromBytes (buf : List UInt8) (lum : Nat) : Res RawImage :=
  match parseHeader buf with
  | none => .throw
  | some hd =>
    let imgSize := hd.width * hd.height
    if imgSize = 0 then .throw
    else if imgSize ≥ W32 then .throw
    else
      let o : Out Pixel := { cap := imgSize, done := [] }
      let b : Bounds := { w := hd.width, h := hd.height }
      if hd.type = 54 then
        if hd.rest.length ≠ imgSize * 3 then .throw
        else do
          let o ← decodeP6 lum hd.rest o
          return { bounds := b, cells := o.cells }
      else if hd.type = 52 then
        if hd.rest.length ≠ p4Len hd.width hd.height then .throw
        else do
          let o ← decodeP4 hd.width hd.height hd.rest o
          return { bounds := b, cells := o.cells }
      else if hd.type = 51 ∨ hd.type = 49 then do
        let (p, o) ← decodeAscii imgSize hd.rest 0 o
        if skipBlank p ≠ [] then .throw
        else return { bounds := b, cells := o.cells }
      else .throw

/-- Bytes of the buffer; using one that was never stored is undefined. -/
def initialised (l : List (Option UInt8)) : Res (List UInt8) :=
  match l.mapM id with
  | some l => .ok l
  | none => .ub

/-- `image_from_file` (image_from_file.cpp L196-299).  If the file shrank while being read the
buffer has uninitialised cells; this is reported as `ub` (the parser or a decoder may read them). -/
def imageFromFile (e : FileEnv) (lum : Nat) : Res RawImage := do
  let cells ← readAll e
  let buf ← initialised cells
  imageFromBytes buf lum

end Ppocr

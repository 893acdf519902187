import Verif.Basic

/-!
# Formatted input and output

`std::istream` in the "C" locale, as implemented by libstdc++, over a finite source: the bytes not yet
extracted, `eofbit`, `failbit` and the `skipws` flag; `badbit` (a failing device) is not modelled. Bytes are
natural numbers below 256. Every operation returns the value it stores (`old` when it stores nothing) and the
new state. An output stream is the list of bytes written.
-/

namespace Ppocr

/-- `std::isspace`. -/
def isSpace (c : Nat) : Bool := c == 32 || (decide (9 ≤ c) && decide (c ≤ 13))

/-- `std::isdigit`. -/
def isDec (c : Nat) : Bool := decide (48 ≤ c) && decide (c ≤ 57)

structure IS where
  rest : List Nat
  eof : Bool
  fail : Bool
  ws : Bool
  deriving Repr, DecidableEq

/-- A stream just opened on a text. -/
def IS.of (l : List Nat) : IS := ⟨l, false, false, true⟩

/-- `good()`. -/
def IS.good (s : IS) : Bool := !s.eof && !s.fail

/-- `std::istream::sentry(is, noskip)`: the new state and whether extraction may start. -/
def IS.sentry (s : IS) (noskip : Bool) : IS × Bool :=
  if !s.good then ({ s with fail := true }, false)
  else if s.ws && !noskip then
    let r := s.rest.dropWhile isSpace
    if r.isEmpty then (⟨[], true, true, s.ws⟩, false) else ({ s with rest := r }, true)
  else (s, true)

/-- An optional sign. -/
def parseSign : List Nat → Bool × List Nat
  | [] => (false, [])
  | c :: t => if c = 45 then (true, t) else if c = 43 then (false, t) else (false, c :: t)

/-- The value of decimal digits. -/
def decVal (l : List Nat) : Nat := l.foldl (fun n c => n * 10 + (c - 48)) 0

/-- `is >> x` for an unsigned type of maximum `max`: `num_get::_M_extract_int`. A sign is accepted and a negative
number wraps. Without digits 0 is stored, on overflow `max`; both set `failbit`. -/
def IS.uint (max : Nat) (s : IS) (old : Nat) : Nat × IS :=
  match s.sentry false with
  | (s, false) => (old, s)
  | (s, true) =>
    let (neg, l) := parseSign s.rest
    let d := l.takeWhile isDec
    let r := l.dropWhile isDec
    if d.isEmpty then (0, ⟨r, r.isEmpty, true, s.ws⟩)
    else if max < decVal d then (max, ⟨r, r.isEmpty, true, s.ws⟩)
    else (if neg then (max + 1 - decVal d) % (max + 1) else decVal d, ⟨r, r.isEmpty, false, s.ws⟩)

/-- `is >> b` for a `bool` without `boolalpha`: a `long` is read and must be 0 or 1. -/
def IS.bool (s : IS) (old : Bool) : Bool × IS :=
  match s.sentry false with
  | (s, false) => (old, s)
  | (s, true) =>
    let (neg, l) := parseSign s.rest
    let d := l.takeWhile isDec
    let r := l.dropWhile isDec
    if d.isEmpty then (false, ⟨r, r.isEmpty, true, s.ws⟩)
    else if decVal d = 0 then (false, ⟨r, r.isEmpty, false, s.ws⟩)
    else if decVal d = 1 ∧ neg = false then (true, ⟨r, r.isEmpty, false, s.ws⟩)
    else (true, ⟨r, r.isEmpty, true, s.ws⟩)

/-- `is >> c` for a `char`. -/
def IS.char (s : IS) (old : Nat) : Nat × IS :=
  match s.sentry false with
  | (s, false) => (old, s)
  | (s, true) =>
    match s.rest with
    | [] => (old, { s with eof := true, fail := true })
    | c :: r => (c, { s with rest := r })

/-- `is >> str` for a `std::string`. -/
def IS.str (s : IS) (old : List Nat) : List Nat × IS :=
  match s.sentry false with
  | (s, false) => (old, s)
  | (s, true) =>
    let w := s.rest.takeWhile fun c => !isSpace c
    let r := s.rest.dropWhile fun c => !isSpace c
    (w, ⟨r, r.isEmpty, w.isEmpty, s.ws⟩)

/-- `is.ignore(max, delim)`: up to and including the first `delim`. -/
def IS.ignore (s : IS) (delim : Nat) : IS :=
  match s.sentry true with
  | (s, false) => s
  | (s, true) =>
    match s.rest.dropWhile (· ≠ delim) with
    | [] => { s with rest := [], eof := true }
    | _ :: r => { s with rest := r }

/-- `is.read(p, n)`: the bytes stored (the rest of `p` is unchanged). -/
def IS.read (s : IS) (n : Nat) : List Nat × IS :=
  match s.sentry true with
  | (s, false) => ([], s)
  | (s, true) =>
    if n ≤ s.rest.length then (s.rest.take n, { s with rest := s.rest.drop n })
    else (s.rest, { s with rest := [], eof := true, fail := true })

/-- `is.rdbuf()->snextc()`: one byte is skipped, no flag changes. -/
def IS.bump (s : IS) : IS := { s with rest := s.rest.drop 1 }

/-- `std::getline(is, str)`: the bytes up to the next newline, which is extracted and dropped. -/
def IS.getline (s : IS) (old : List Nat) : List Nat × IS :=
  match s.sentry true with
  | (s, false) => (old, s)
  | (s, true) =>
    let w := s.rest.takeWhile (· ≠ 10)
    match s.rest.dropWhile (· ≠ 10) with
    | [] => (w, { s with rest := [], eof := true, fail := w.isEmpty })
    | _ :: r => (w, { s with rest := r })

/-- Decimal digits, with a bound on the recursion. -/
def decAux : Nat → Nat → List Nat
  | 0, n => [48 + n % 10]
  | f + 1, n => if n < 10 then [48 + n] else decAux f (n / 10) ++ [48 + n % 10]

/-- `os << n` for an unsigned number; `os << b` for a `bool` writes 0 or 1. -/
def showNat (n : Nat) : List Nat := decAux n n

/-- `os << b`. -/
def showBool (b : Bool) : List Nat := if b then [49] else [48]

end Ppocr

import Verif.Model.Tools

/-!
# The command line of `write_glyphs` and `show_glyphs`, and `show_glyphs`

`main/write_glyphs.cpp` L98-120, `main/show_glyphs.cpp` and `operator<<(std::ostream &, Image const &)`. An argument is the
list of its bytes; `av[0]` is left out. What goes to `std::cerr` is left out. `errno` is 0 when `main` starts.
-/

namespace Ppocr

/-- What `std::strtoul` returns: the value, the text from where it stopped, and whether `errno` was set. -/
structure Conv where
  value : Nat
  rest : List Nat
  error : Bool
  deriving Repr, DecidableEq

/-- `std::strtoul(s, &p, 10)` for a 64-bit `unsigned long`: blanks, a sign, digits. -/
def strtoul (s : List Nat) : Conv :=
  let (neg, l) := parseSign (s.dropWhile isSpace)
  let d := l.takeWhile isDec
  let r := l.dropWhile isDec
  if d.isEmpty then ⟨0, s, false⟩
  else if 2 ^ 64 ≤ decVal d then ⟨2 ^ 64 - 1, r, true⟩
  else ⟨if neg then (2 ^ 64 - decVal d) % 2 ^ 64 else decVal d, r, false⟩

/-- The option `-l`, `write_glyphs.cpp` L100-111 and `show_glyphs.cpp` L48-59: the exit code, or the threshold and the
arguments that are left. It is looked at only if `ac > 3`; the `unsigned long` is converted to `unsigned`. -/
def lumOption : List (List Nat) → Except Nat (Nat × List (List Nat))
  | o :: v :: a :: as =>
    if o = [45, 108] then
      let c := strtoul v
      if c.rest = v ∨ c.rest ≠ [] ∨ c.error = true then .error 2 else .ok (c.value % W32, a :: as)
    else .ok (128, o :: v :: a :: as)
  | as => .ok (128, as)

/-- The files by their names. -/
structure Disk where
  image : List Nat → FileEnv
  text : List Nat → TextFile

/-- What a program gave to `std::cout`, and its exit code. -/
structure Ran where
  out : List Nat
  code : Res Nat
  deriving Repr, DecidableEq

/-- The end of `main` without `return`. -/
def Written.ran (w : Written) : Ran := ⟨w.out, do let _ ← w.ended; return 0⟩

/-- The arguments three by three, `write_glyphs.cpp` L117-119. -/
def jobsOf (D : Disk) : List (List Nat) → List Job
  | a :: b :: c :: as => ⟨D.image a, D.text b, c⟩ :: jobsOf D as
  | _ => []

/-- `main` of `write_glyphs.cpp` L98-120. -/
def writeGlyphsMain (D : Disk) (args : List (List Nat)) : Ran :=
  match lumOption args with
  | .error c => ⟨[], .ok c⟩
  | .ok (lum, as) =>
    if as.length + 1 < 4 ∨ as.length % 3 ≠ 0 then ⟨[], .ok 1⟩ else (writeGlyphs lum (jobsOf D as)).ran

/-! ### `show_glyphs` -/

/-- A text given to a stream with `width(n)` and `fill(':')`. -/
def padded (n : Nat) (s : List Nat) : List Nat := List.replicate (n - s.length) 58 ++ s

/-- The rows, `image.cpp` L89-94: `n` rows are left, `p` is the offset of the next. -/
def showRows (data : List Pixel) (w : Nat) : Nat → Nat → Res (List Nat)
  | 0, _ => .ok []
  | n + 1, p => do
    let o ← copyTo data p w ⟨w, []⟩
    let r ← showRows data w n (p + w)
    return 58 :: (o.done.map UInt8.toNat ++ [58, 10]) ++ r

/-- `operator<<(std::ostream &, Image const &)`, `image.cpp` L83-98. -/
def imageShow (i : Image) : Res (List Nat) := do
  let r ← showRows i.data i.bounds.w i.bounds.h 0
  return padded (uadd i.bounds.w 3) [58, 10] ++ r ++ padded (uadd i.bounds.w 3) [58, 10]

/-- One pass of the loop, `show_glyphs.cpp` L39-42: the next column and what is written; `none` is the end. -/
def showStep (i : Image) (x : Nat) : Res (Option (Nat × List Nat)) := do
  let b ← makeBox i x 0 i.bounds
  if b.truthy then do
    let a ← i.section b.x b.y b.bounds
    let t ← imageShow a
    return some (uadd b.x b.w, t ++ [10])
  else return none

/-- The loop, `show_glyphs.cpp` L39-42. -/
def showLoop (i : Image) : Nat → Nat → List Nat → Written
  | 0, _, out => ⟨out, .diverge⟩
  | fuel + 1, x, out =>
    match showStep i x with
    | .ok none => ⟨out, .ok ()⟩
    | .ok (some (x, t)) => showLoop i fuel x (out ++ t)
    | r => ⟨out, r.void⟩

/-- `load_file`, `show_glyphs.cpp` L31-43. -/
def showFile (lum : Nat) (e : FileEnv) : Written :=
  match loadImage e lum with
  | .ok i => showLoop i (i.bounds.w + 1) 0 []
  | r => ⟨[], r.void⟩

/-- The loop of `main`, `show_glyphs.cpp` L65-67. -/
def showGlyphs (lum : Nat) : List FileEnv → Written
  | [] => ⟨[], .ok ()⟩
  | e :: es =>
    let r := showFile lum e
    match r.ended with
    | .ok () => let q := showGlyphs lum es; ⟨r.out ++ q.out, q.ended⟩
    | _ => r

/-- `main` of `show_glyphs.cpp` L46-68. -/
def showGlyphsMain (D : Disk) (args : List (List Nat)) : Ran :=
  match lumOption args with
  | .error c => ⟨[], .ok c⟩
  | .ok (lum, as) => if as.length + 1 < 2 then ⟨[], .ok 1⟩ else (showGlyphs lum (as.map D.image)).ran

end Ppocr

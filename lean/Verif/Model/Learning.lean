import Verif.Model.Command
import Verif.Model.Normalize

/-!
# The script `learning`

`/repo/learning`: `write_glyphs` for every picture, then `normalize_glyphs` and `write_datas`. The names that the patterns `*`,
`*.pnm` and `*.pbm` stand for (L16-17, L24-25) are given as lists. The check of the arguments (L3-6) is left out, and so is
what goes to `std::cerr`. A program that ends with an exception has an exit code other than 0 for the shell; what of its
output is lost then in the buffer of `std::cout` is not modelled.
-/

namespace Ppocr

/-- The names on one command line of `write_glyphs`: the picture, the text, the font. -/
structure Run where
  picture : List Nat
  text : List Nat
  font : List Nat

/-- `"$write_glyphs" -l 100 "$f" ../letters "$d"`, `learning` L18, and with the text of the picture in L26. -/
def Run.args (r : Run) : List (List Nat) := [[45, 108], [49, 48, 48], r.picture, r.text, r.font]

/-- The function `learning`, `learning` L12-31: it returns behind the first command that fails. -/
def learnRuns (D : Disk) : List Run → Ran
  | [] => ⟨[], .ok 0⟩
  | r :: rs =>
    let g := writeGlyphsMain D r.args
    match g.code with
    | .ok 0 => let q := learnRuns D rs; ⟨g.out ++ q.out, q.code⟩
    | c => ⟨g.out, c⟩

/-- The files that the script writes, `learning` L33-43. -/
inductive OutFile
  | glyphsLatin | glyphsCyrillic
  | normLatin | normCyrillic | normBoth
  | datasLatin | datasCyrillic | datasBoth
  deriving DecidableEq, Repr

/-- What these files hold; `none` is a file that is not there. -/
abbrev Store := OutFile → TextFile

/-- A file is written, or removed. -/
def Store.put (s : Store) (f : OutFile) (t : TextFile) : Store := fun g => if g = f then t else s g

/-- A program that returns its exit code and what it printed. -/
def ranOf : Res (Nat × List Nat) → Ran
  | .ok (c, t) => ⟨t, .ok c⟩
  | .throw => ⟨[], .throw⟩
  | .abort => ⟨[], .abort⟩
  | .ub => ⟨[], .ub⟩
  | .diverge => ⟨[], .diverge⟩

/-- `command > file && …`: the file is written, and what follows is done if the command succeeds. -/
def andThen (s : Store) (f : OutFile) (r : Ran) (k : Store → Store × Res Nat) : Store × Res Nat :=
  match r.code with
  | .ok 0 => k (s.put f (some r.out))
  | c => (s.put f (some r.out), c)

/-- The commands of `learning` L36-43: the files that are left and the exit code. -/
def learningScript (S : StdSort) (D : Disk) (latin cyrillic : List Run) (s : Store) : Store × Res Nat :=
  andThen s .glyphsLatin (learnRuns D latin) fun s =>
  andThen s .glyphsCyrillic (learnRuns D cyrillic) fun s =>
  andThen s .normLatin (ranOf (normalizeMain S [s .glyphsLatin])) fun s =>
  andThen s .normCyrillic (ranOf (normalizeMain S [s .glyphsCyrillic])) fun s =>
  andThen s .normBoth (ranOf (normalizeMain S [s .glyphsLatin, s .glyphsCyrillic])) fun s =>
  andThen s .datasLatin (ranOf (writeDatas (s .normLatin))) fun s =>
  andThen s .datasCyrillic (ranOf (writeDatas (s .normCyrillic))) fun s =>
  andThen s .datasBoth (ranOf (writeDatas (s .normBoth))) fun s =>
  ((s.put .glyphsLatin none).put .glyphsCyrillic none, .ok 0)

end Ppocr

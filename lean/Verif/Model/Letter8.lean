import Verif.Model.Text6

/-!
# The program `extract_text8` behind its tables

`main/extract_text8.cpp` L224-519 and L690-784. What it prints besides the three results is left out. What is written the same
way in `extract_text6.cpp` is in `Model/Text6.lean`: the loading of a feature (L260-272), the sorting of candidates (L155-222),
the complex and the exclusive strategies (L274-374), the loop over the line (L697-728) and the text (L733-773).
-/

namespace Ppocr

/-- What is used of a `double`: the number 1, `p * a / b` for integers, and `<=`. -/
class Prob8 (P : Type) where
  one : P
  scale : P → Nat → Nat → P
  le : P → P → Bool

/-- What is assumed of them: `<=` is a total preorder; of a number that is at most 1, a percentage is at most 1, and less than
1 below 100 percent; a percentage of a number less than 1 is less than 1, and `p * 100 / 100` is at least 1 if `p` is. That is
so for IEEE numbers rounded to nearest. -/
class LawfulProb8 (P : Type) extends Prob8 P where
  total : ∀ a b : P, le a b = false → le b a = true
  trans : ∀ a b c : P, le a b = true → le b c = true → le a c = true
  scale_le : ∀ (p : P) (a : Nat), a ≤ 100 → le p one = true → le (scale p a 100) one = true
  scale_cut : ∀ (p : P) (a : Nat), a < 100 → le p one = true → le one (scale p a 100) = false
  scale_lt : ∀ (p : P) (a : Nat), a ≤ 100 → le one p = false → le one (scale p a 100) = false
  scale_full : ∀ p : P, le one p = true → le one (scale p 100 100) = true

/-- `p < q`. -/
def Prob8.less {P : Type} [Prob8 P] (p q : P) : Bool := !Prob8.le q p

/-- `in_interval`, `extract_text8.cpp` L388-391. -/
def inInterval (x y d : Nat) : Bool := !(if x < y then decide (y > uadd x d) else decide (x > uadd y d))

/-- `data.count_posibilities() - 1`, `extract_text8.cpp` L378. -/
def interval8 (s : Feat × Policy) : Nat := usub (intervalRel s.1.k).count 1

/-- The factor in `update_probability`, `extract_text8.cpp` L378-385, in percent: `v` is the entry of the column, `x` the value of
the letter. -/
def factor8 (interval v x : Nat) : Res Nat :=
  let d := interval / 10
  if x < v then
    if v ≤ uadd x d then udiv (umul (usub interval (usub v x)) 100) interval else .ok 0
  else
    if x ≤ uadd v d then udiv (umul (usub interval (usub x v)) 100) interval else .ok 0

section
variable {P : Type} [Prob8 P]

/-- The loop of the first strategy, `extract_text8.cpp` L424-428: `n` rows from `i` on. -/
def first8 (col : List Nat) (x d : Nat) : Nat → Nat → Res (List (Nat × P))
  | 0, _ => .ok []
  | n + 1, i => do
    let v ← rd col i
    let r ← first8 col x d n (i + 1)
    return if inInterval x v d then (i, Prob8.one) :: r else r

/-- `reduce_universe`, `extract_text8.cpp` L393-404. -/
def reduce8 (col : List Nat) (x d : Nat) : List (Nat × P) → Res (List (Nat × P))
  | [] => .ok []
  | p :: ps => do
    let v ← rd col p.1
    let r ← reduce8 col x d ps
    return if inInterval x v d then p :: r else r

/-- The fold of `reduce_universe`, `extract_text8.cpp` L430-434. -/
def reduceAll8 (d : Datas) (img img90 : Image) : List (Feat × Policy) → List (Nat × P) → Res (List (Nat × P))
  | [], ps => .ok ps
  | s :: ss, ps => do
    let x := (← toolLoad s img img90).toNum
    let ps ← reduce8 (d.col s) x (interval8 s / 10) ps
    reduceAll8 d img img90 ss ps

/-- The calls of `update_probability`, `extract_text8.cpp` L437-448, for row `i`. -/
def update8 (d : Datas) (img img90 : Image) (i : Nat) : List (Feat × Policy) → P → Res P
  | [], p => .ok p
  | s :: ss, p => do
    let x := (← toolLoad s img img90).toNum
    let v ← rd (d.col s) i
    let f ← factor8 (interval8 s) v x
    update8 d img img90 i ss (Prob8.scale p f 100)

/-- `compute_image_data_type`, `extract_text8.cpp` L224-258, and `data_by_word`. -/
structure Tab8 where
  words : List Words
  datas : Datas
  byWords : List (List Nat)

/-- The candidates of a letter, `extract_text8.cpp` L418-449. The index is an `unsigned` compared with a `size_t`: it does not
get to 2^32. The buffer has room for `glyphs.size()` candidates, L252. -/
def candidates8 (t : Tab8) (img img90 : Image) : Res (List (Nat × P)) := do
  let x1 := (← toolLoad strategy1 img img90).toNum
  if W32 ≤ t.datas.size then .diverge
  else do
    let ps ← first8 (t.datas.col strategy1) x1 (interval8 strategy1 / 10) t.datas.size 0
    if t.words.length < ps.length then .ub
    else do
      let ps ← reduceAll8 t.datas img img90 otherAlgos ps
      eachRes (fun p : Nat × P => do
        let q ← update8 t.datas img img90 p.1 (strategy1 :: otherAlgos) p.2
        return (p.1, q)) ps

/-- `compute_image`, `extract_text8.cpp` L407-519. -/
def computeLetter8 (P : Type) [Prob8 P] (S : StdSort) (t : Tab8) (img img90 : Image) : Res Letter6 := do
  let ps : List (Nat × P) ← candidates8 t img img90
  let tmp ← sortShow S Prob8.less t.words ps
  match tmp with
  | [] => return ⟨unknown6, unknown6, [], [unknown6]⟩
  | best :: _ => do
    let r1 ← getWord6 t.words best
    if Prob8.le Prob8.one best.2 then do
      let ws ← gather6 t.words (fun p => !Prob8.le Prob8.one p) tmp
      return ⟨r1, r1, ws, ws⟩
    else do
      let ps ← reduceComplex6 Prob8.scale img img90 (complexStrats.map t.datas.strat6) ps
      let ps ← reduceExclusive6 t.byWords img img90 (exclusiveStrats.map t.datas.strat6) ps
      let ps ← sortShow S Prob8.less t.words ps
      match ps with
      | [] => return ⟨r1, unknown6, [], [unknown6]⟩
      | first :: _ => do
        let ws ← gather6 t.words (fun p => Prob8.less p first.2) ps
        let r2 ← getWord6 t.words first
        return ⟨r1, r2, ws, ws⟩

end

/-- The columns behind `apply_from_datas`, `extract_text8.cpp` L679, and the words behind `reindex`, L678. A vector that was moved from
is found before, by `make_data_by_word`. -/
def tab8 (d : Datas) (p : Prepared) (bw : List (List Nat)) : Res Tab8 := do
  let ws ← unmoved p.words
  let ts ← columns6 d.tables p.cols
  return ⟨ws, ⟨ts, Ctxs.fresh⟩, bw⟩

/-- `main` of `extract_text8.cpp` L581-784. -/
def program8 (P : Type) [Prob8 P] (S : StdSort) (mv : List Nat → List Nat) (f : ProgFiles) : Res Answer6 := do
  let (E, d, p, bw) ← tables8 S mv f
  let t ← tab8 d p bw
  let i ← loadImage f.image 128
  extract6 (computeLetter8 P S t) E i

end Ppocr

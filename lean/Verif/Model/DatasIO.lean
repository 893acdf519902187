import Verif.Model.Stream
import Verif.Model.Datas

/-!
# Files of features

The stream operators of `DefaultDatas` (`src/ppocr/defined_loader.hpp` L158-267), those of `alternations_type`
(`src/ppocr/strategies/alternations.cpp` L78-84) and `check_read_file` (`src/ppocr/utils/read_file.hpp` L29-43).
-/

namespace Ppocr

/-- The greatest `std::size_t`. -/
def maxS : Nat := 18446744073709551615

/-- The types of values. -/
inductive Shape
  | num
  | arr (n : Nat)
  | vec
  | alt (n : Nat)
  deriving Repr, DecidableEq

/-- `value_type` of the strategies: `zone.hpp` L46-47 and L32-42 (7 indexes), `proportionality_zone.hpp` L37,
`alternations.hpp` L102-103, `unsigned` for the others. -/
def Feat.shape : Feat → Shape
  | .zone => .arr 7
  | .propZone => .vec
  | .alternations => .alt 7
  | _ => .num

/-- `os << x << ' '` for an `unsigned`. -/
def numWrite (n : Nat) : List Nat := showNat n ++ [32]

/-- `os << x << ' '` for an `alternations_type`, `alternations.cpp` L78-80. -/
def altWrite (x : Bool × Nat) : List Nat := showBool x.1 ++ 32 :: (showNat x.2 ++ [32])

/-- `WriteApplyData::write`, `defined_loader.hpp` L175-192; only a `std::vector` is preceded by its size. -/
def valueWrite (sh : Shape) : Value → List Nat
  | .num n => numWrite n
  | .arr l => (if sh = .vec then numWrite l.length else []) ++ l.flatMap numWrite
  | .alt l => l.flatMap altWrite

/-- `WriteApplyData::operator()`, `defined_loader.hpp` L162-172. -/
def tableWrite (t : Table) : List Nat := t.vals.flatMap (valueWrite t.strat.1.shape) ++ [10]

/-- `Datas::size`, `datas_loader.hpp` L207-209: the size of the first table. -/
def Datas.size (d : Datas) : Nat :=
  match d.tables with
  | [] => 0
  | t :: _ => t.vals.length

/-- `operator<<` of `DefaultDatas`, `defined_loader.hpp` L249-253. -/
def datasWrite (d : Datas) : List Nat := showNat d.size ++ 10 :: d.tables.flatMap tableWrite

/-- `n` times `is >> x` on `unsigned`s that are 0; a failed stream does not end the loop, it leaves the zeros. -/
def numsRead : Nat → IS → List Nat × IS
  | 0, s => ([], s)
  | n + 1, s =>
    let r := s.uint (W32 - 1) 0
    let q := numsRead n r.2
    (r.1 :: q.1, q.2)

/-- The same for `alternations_type`, `alternations.cpp` L82-84. -/
def altsRead : Nat → IS → List (Bool × Nat) × IS
  | 0, s => ([], s)
  | n + 1, s =>
    let b := s.bool false
    let r := b.2.uint (W32 - 1) 0
    let q := altsRead n r.2
    ((b.1, r.1) :: q.1, q.2)

/-- `ReadApplyData::read`, `defined_loader.hpp` L223-244. A size so great that `resize` throws is not modelled. -/
def valueRead (sh : Shape) (s : IS) : Value × IS :=
  match sh with
  | .num => let r := s.uint (W32 - 1) 0; (.num r.1, r.2)
  | .arr n => let r := numsRead n s; (.arr r.1, r.2)
  | .vec =>
    let r := s.uint maxS 0
    if r.2.fail then (.arr [], r.2)
    else let q := numsRead r.1 r.2; (.arr q.1, q.2)
  | .alt n => let r := altsRead n s; (.alt r.1, r.2)

/-- `for (auto & x : cont) this->read(x)`, `defined_loader.hpp` L212-214. -/
def valuesRead (sh : Shape) : Nat → IS → List Value × IS
  | 0, s => ([], s)
  | n + 1, s =>
    let r := valueRead sh s
    let q := valuesRead sh n r.2
    (r.1 :: q.1, q.2)

/-- `ReadApplyData::operator()`, `defined_loader.hpp` L199-220. -/
def tablesRead (sz : Nat) : List (Feat × Policy) → IS → List Table × IS
  | [], s => ([], if s.fail then s else (s.sentry false).1)
  | f :: fs, s =>
    let r := if s.fail then ([], s) else valuesRead f.1.shape sz s
    let q := tablesRead sz fs r.2
    (⟨f, r.1⟩ :: q.1, q.2)

/-- `operator>>` of `DefaultDatas`, `defined_loader.hpp` L255-265; `sz` is only used when it was read. -/
def datasRead (s : IS) : Datas × IS :=
  let r := s.uint maxS 0
  let q := tablesRead r.1 (simpleStrats ++ complexStrats ++ exclusiveStrats) r.2
  (⟨q.1, Ctxs.fresh⟩, q.2)

/-- `check_read_file`, `read_file.hpp` L37-42, behind the reader: an exception unless the end was met. -/
def checkEof (s : IS) : Res Unit := if s.eof then .ok () else .throw

/-- `load_from_file<PpOcrDatas>` on a file that opens, `read_file.hpp` L50-55. -/
def datasFromFile (text : List Nat) : Res Datas := do
  let r := datasRead (IS.of text)
  checkEof r.2
  return r.1

end Ppocr

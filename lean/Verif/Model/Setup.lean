import Verif.Model.Ocr2
import Verif.Model.DatasIO
import Verif.Model.Glyphs

/-!
# What `ocr2_extract_text` prepares from its tables

`main/ocr2_extract_text.cpp` L76-112 and the instance of `compute_image` at L136-151: the strategies of `defined_loader.hpp` with
the tables of a `PpOcrDatas`.
-/

namespace Ppocr

/-- An `unsigned`. The types of C++ leave no other case. -/
def Value.toNum : Value → Nat
  | .num n => n
  | _ => 0

/-- An array or vector of `unsigned`. The types of C++ leave no other case. -/
def Value.toArr : Value → List Nat
  | .arr l => l
  | _ => []

/-- An array of `alternations_type`. The types of C++ leave no other case. -/
def Value.toAlt : Value → List (Bool × Nat)
  | .alt l => l
  | _ => []

/-- `Datas::get<Strategy>` (datas_loader.hpp L197-205); the strategies of a `PpOcrDatas` are distinct. -/
def Datas.get (d : Datas) (s : Feat × Policy) : List Value :=
  match d.tables.find? fun t => decide (t.strat = s) with
  | some t => t.vals
  | none => []

/-- `Strategy::load(img, img90, ctx)` (compute_image.hpp L47, L63, L138). The context is new for each strategy, instead of new for
each image (compute_image.hpp L194); C26 tells that the values are the same. -/
def loadStrat (s : Feat × Policy) (img img90 : Image) : Res Value := do
  let (v, _) ← stratLoad s img img90 Ctxs.fresh
  return v

/-- A strategy of `PpOcrSimpleDatas`. -/
def Datas.simple (d : Datas) (s : Feat × Policy) : Simple where
  k := s.1.k
  load img img90 := do return (← loadStrat s img img90).toNum
  tab := (d.get s).map Value.toNum

/-- A strategy of `PpOcrComplexDatas` or `PpOcrExclusiveDatas`, with its relationship: `alternations.hpp` L102, `zone.hpp` L46,
`proportionality_zone.hpp` L35, `hbar.hpp` L34. -/
def Datas.strat (d : Datas) (s : Feat × Policy) : Strat :=
  match s.1 with
  | .alternations => ⟨_, arrayRel (Bool × Nat), fun a r => do return (← loadStrat s a r).toAlt, (d.get s).map Value.toAlt⟩
  | .zone => ⟨_, arrayRel Nat, fun a r => do return (← loadStrat s a r).toArr, (d.get s).map Value.toArr⟩
  | .propZone => ⟨_, pzRel, fun a r => do return (← loadStrat s a r).toArr, (d.get s).map Value.toArr⟩
  | _ => ⟨_, equalRel, fun a r => do return (← loadStrat s a r).toNum, (d.get s).map Value.toNum⟩

/-- `FirstLoaderStrategy` (ocr2_extract_text.cpp L90): the first strategy of `PpOcrDatas`. -/
def firstStrat : Feat × Policy := (.dvgravity2, .img90)

/-- The other strategies of `PpOcrSimpleDatas`. -/
def otherStrats : List (Feat × Policy) := simpleStrats.tail

/-- `ocr2_extract_text.cpp` L76-78 and L85: exception when the two tables have different sizes; then `data_indexes_by_words`. -/
def checkTables (glyphs : List (List View)) (d : Datas) : Res (List (List Nat)) :=
  if glyphs.length ≠ d.size then .throw else dataIndexesByWords glyphs

/-- The other tables, `ocr2_extract_text.cpp` L87-97, and the arguments at L136-151; the two buffers have the size of the glyphs. -/
def setupOf {P : Type} [Dbl P] (S : StdSort) (glyphs : List (List View)) (d : Datas) (byWords : List (List Nat)) : Setup P where
  sort := S
  first := d.simple firstStrat
  simple := otherStrats.map d.simple
  complex := complexStrats.map d.strat
  exclusive := exclusiveStrats.map d.strat
  cap := glyphs.length
  capTmp := glyphs.length
  idx := indexesOrdered S (d.simple firstStrat).tab
  byWords := byWords
  glyphs := glyphs
  ids := viewsIndexes S glyphs
  limit := Dbl.ofPct 50

end Ppocr

import Verif.Model.Command
import Verif.Model.Datas
import Verif.Model.DictIO
import Verif.Model.Disambiguouser
import Verif.Model.Double
import Verif.Model.ImageText
import Verif.Model.Ocr2
import Verif.Model.Reindex
import Verif.Model.Setup

/-!
# The unit tests of the project, on the model

Each `example` replays a check of `/repo/tests` (the file is named before it): the model gives what the test expects of the code.
They support the reading of the code; they prove no property.
-/

namespace Ppocr.Tests

/-- The bytes of a text. -/
def bytes (s : String) : List Nat := s.toUTF8.toList.map UInt8.toNat

/-- `image_from_string`. -/
def pic (w h : Nat) (s : String) : Res Image := imageFromString ⟨w, h⟩ (s.toUTF8.toList ++ [0])

/-! `tests/strategies/test_hgravity.cpp` -/

example : (do hgravityLoad (← pic 3 3 "---------")) = .ok 100 := by decide +kernel
example : (do hgravityLoad (← pic 3 3 "-x-------")) = .ok 200 := by decide +kernel
example : (do hgravityLoad (← pic 3 3 "-------x-")) = .ok 0 := by decide +kernel
example : (do hgravityLoad (← pic 3 3 "----x----")) = .ok 100 := by decide +kernel
example : (do hgravityLoad (← pic 3 3 "--xx----x")) = .ok 100 := by decide +kernel
example : (do hgravityLoad (← pic 3 3 "--x-----x")) = .ok 100 := by decide +kernel
example : (do hgravityLoad (← pic 3 5 "--x------x-x--x")) = .ok 66 := by decide +kernel

example : (intervalRel 200).compute 100 100 = .ok 100 := by decide +kernel
example : (intervalRel 200).compute 200 100 = .ok 50 := by decide +kernel
example : (intervalRel 200).compute 150 100 = .ok 75 := by decide +kernel
example : (intervalRel 200).compute 50 100 = .ok 75 := by decide +kernel
example : (intervalRel 200).compute 50 0 = .ok 75 := by decide +kernel
example : (intervalRel 200).compute 50 200 = .ok 25 := by decide +kernel
example : (intervalRel 200).compute 50 33 = .ok 92 := by decide +kernel
example : (intervalRel 200).compute 88 45 = .ok 79 := by decide +kernel

/-! `tests/strategies/test_hdirection.cpp` -/

example : (do hdirectionLoad (← pic 3 3 "---------")) = .ok 100 := by decide +kernel
example : (do hdirectionLoad (← pic 3 3 "-x-------")) = .ok 200 := by decide +kernel
example : (do hdirectionLoad (← pic 3 3 "-------x-")) = .ok 0 := by decide +kernel
example : (do hdirectionLoad (← pic 3 3 "----x----")) = .ok 100 := by decide +kernel
example : (do hdirectionLoad (← pic 3 3 "--xx----x")) = .ok 100 := by decide +kernel
example : (do hdirectionLoad (← pic 3 3 "--x-----x")) = .ok 100 := by decide +kernel
example : (do hdirectionLoad (← pic 3 5 "--x------x-x--x")) = .ok 50 := by decide +kernel

example : (intervalRel 200).compute 100 100 = .ok 100 := by decide +kernel
example : (intervalRel 200).compute 200 100 = .ok 50 := by decide +kernel
example : (intervalRel 200).compute 150 100 = .ok 75 := by decide +kernel
example : (intervalRel 200).compute 50 100 = .ok 75 := by decide +kernel
example : (intervalRel 200).compute 50 0 = .ok 75 := by decide +kernel
example : (intervalRel 200).compute 50 200 = .ok 25 := by decide +kernel
example : (intervalRel 200).compute 50 33 = .ok 92 := by decide +kernel
example : (intervalRel 200).compute 88 45 = .ok 79 := by decide +kernel

/-! `tests/strategies/test_hgravity2.cpp` -/

example : (do hgravity2Load (← pic 3 3 "xxx----x-")) = .ok 83 := by decide +kernel
example : (do hgravity2Load (← pic 3 3 "-x----xxx")) = .ok 16 := by decide +kernel
example : (do hgravity2Load (← pic 3 3 "----x----")) = .ok 50 := by decide +kernel
example : (do hgravity2Load (← pic 3 3 "--xx----x")) = .ok 50 := by decide +kernel
example : (do hgravity2Load (← pic 3 3 "--x-----x")) = .ok 50 := by decide +kernel
example : (do hgravity2Load (← pic 3 5 "--x------x-x--x")) = .ok 38 := by decide +kernel

example : (intervalRel 100).compute 50 50 = .ok 100 := by decide +kernel
example : (intervalRel 100).compute 100 50 = .ok 50 := by decide +kernel
example : (intervalRel 100).compute 75 50 = .ok 75 := by decide +kernel
example : (intervalRel 100).compute 25 50 = .ok 75 := by decide +kernel
example : (intervalRel 100).compute 25 0 = .ok 75 := by decide +kernel
example : (intervalRel 100).compute 25 100 = .ok 25 := by decide +kernel
example : (intervalRel 100).compute 25 16 = .ok 91 := by decide +kernel
example : (intervalRel 100).compute 88 45 = .ok 57 := by decide +kernel

/-! `tests/strategies/test_hdirection2.cpp` -/

example : (do hdirection2Load (← pic 3 3 "xxx----x-")) = .ok 83 := by decide +kernel
example : (do hdirection2Load (← pic 3 3 "-x----xxx")) = .ok 16 := by decide +kernel
example : (do hdirection2Load (← pic 3 3 "----x----")) = .ok 50 := by decide +kernel
example : (do hdirection2Load (← pic 3 3 "--xx----x")) = .ok 50 := by decide +kernel
example : (do hdirection2Load (← pic 3 3 "--x-----x")) = .ok 50 := by decide +kernel
example : (do hdirection2Load (← pic 3 5 "--x------x-x--x")) = .ok 33 := by decide +kernel

example : (intervalRel 100).compute 50 50 = .ok 100 := by decide +kernel
example : (intervalRel 100).compute 100 50 = .ok 50 := by decide +kernel
example : (intervalRel 100).compute 75 50 = .ok 75 := by decide +kernel
example : (intervalRel 100).compute 25 50 = .ok 75 := by decide +kernel
example : (intervalRel 100).compute 25 0 = .ok 75 := by decide +kernel
example : (intervalRel 100).compute 25 100 = .ok 25 := by decide +kernel
example : (intervalRel 100).compute 25 16 = .ok 91 := by decide +kernel
example : (intervalRel 100).compute 88 45 = .ok 57 := by decide +kernel

/-! `tests/strategies/test_proportionality.cpp` -/

example : (do proportionalityLoad (← pic 3 3 "---------")) = .ok 50 := by decide +kernel
example : (do proportionalityLoad (← pic 3 5 "--x--x-----x--x")) = .ok 37 := by decide +kernel
example : (do proportionalityLoad (← pic 5 7 "-------------xx------------------xx")) = .ok 41 := by decide +kernel
example : (do proportionalityLoad (← pic 7 5 "-----------------------------------")) = .ok 58 := by decide +kernel
example : (do proportionalityLoad (← pic 6 4 "------------------------")) = .ok 60 := by decide +kernel

example : (intervalRel 100).compute 20 6 = .ok 86 := by decide +kernel
example : (intervalRel 100).compute 6 20 = .ok 86 := by decide +kernel

/-! `tests/strategies/test_proportionality_zone.cpp` -/

example : (do propZoneLoad (← pic 3 3 "---------")) = .ok [100] := by decide +kernel
example : (do propZoneLoad (← pic 3 5 "--x--x-----x--x")) = .ok [100] := by decide +kernel
example : (do propZoneLoad (← pic 5 7 "----------xxxxx------------------xx")) = .ok [37, 62] := by decide +kernel
example : (do propZoneLoad (← pic 7 5 "---------xxx----x-x----xxx---------")) = .ok [100] := by decide +kernel
example : (do propZoneLoad (← pic 7 5 "----x----xxx----xxx---xxxx---x---x-")) = .ok [22, 33, 44] := by decide +kernel
example : (do propZoneLoad (← pic 6 4 "x-x-x--X-X-xx-x-x--X-x-x")) = .ok [20, 20, 20, 40] := by decide +kernel

/-! `tests/strategies/test_zone.cpp` -/

example : (do zoneLoad (← pic 3 3 "xxx----x-")) = .ok [1, 0, 0, 1, 1, 1, 0] := by decide +kernel
example : (do zoneLoad (← pic 3 5 "--x------xxx--x")) = .ok [0, 1, 1, 1, 1, 2, 0] := by decide +kernel
example : (do zoneLoad (← pic 3 4 "-x-x-xxxxx-x")) = .ok [0, 1, 2, 1, 1, 1, 1] := by decide +kernel
example : (do zoneLoad (← pic 5 6 "--x---x-x-x---xxxxxxx---xx---x")) = .ok [0, 1, 2, 1, 1, 1, 1] := by decide +kernel

/-! `tests/strategies/test_hbar.cpp` -/

example : (do hbarLoad (← pic 3 3 "---------")) = .ok 0 := by decide +kernel
example : (do hbarLoad (← pic 3 3 "-x-------")) = .ok 0 := by decide +kernel
example : (do hbarLoad (← pic 3 3 "-------x-")) = .ok 0 := by decide +kernel
example : (do hbarLoad (← pic 3 3 "----x----")) = .ok 0 := by decide +kernel
example : (do hbarLoad (← pic 3 3 "--xx----x")) = .ok 0 := by decide +kernel
example : (do hbarLoad (← pic 3 3 "--x-----x")) = .ok 0 := by decide +kernel
example : (do hbarLoad (← pic 3 5 "--x------x-x--x")) = .ok 0 := by decide +kernel
example : (do hbarLoad (← pic 3 3 "xxx-----x")) = .ok 1 := by decide +kernel
example : (do hbarLoad (← pic 3 3 "xxx-----x")) = .ok 1 := by decide +kernel
example : (do hbarLoad (← pic 3 3 "xxxxxx--x")) = .ok 1 := by decide +kernel
example : (do hbarLoad (← pic 3 5 "xxxxxx--xxxxxxx")) = .ok 2 := by decide +kernel
example : (do hbarLoad (← pic 3 5 "xx-xxx--xxxxx-x")) = .ok 2 := by decide +kernel

example : equalRel.compute 0 0 = .ok 100 ∧ equalRel.compute 2 2 = .ok 100 ∧ equalRel.compute 2 1 = .ok 0 := by decide +kernel

/-! `tests/strategies/test_dzdensity.cpp` -/

example : (do dzdensityLoad (← pic 1 1 "-")) = .ok 0 := by decide +kernel
example : (do dzdensityLoad (← pic 2 2 "----")) = .ok 0 := by decide +kernel
example : (do dzdensityLoad (← pic 2 4 "--------")) = .ok 0 := by decide +kernel
example : (do dzdensityLoad (← pic 1 4 "----")) = .ok 0 := by decide +kernel
example : (do dzdensityLoad (← pic 3 3 "---------")) = .ok 0 := by decide +kernel
example : (do dzdensityLoad (← pic 3 3 "-x-------")) = .ok 0 := by decide +kernel
example : (do dzdensityLoad (← pic 3 3 "-----x---")) = .ok 0 := by decide +kernel
example : (do dzdensityLoad (← pic 3 3 "-------x-")) = .ok 0 := by decide +kernel
example : (do dzdensityLoad (← pic 3 3 "---x-----")) = .ok 0 := by decide +kernel
example : (do dzdensityLoad (← pic 3 3 "x--------")) = .ok 33 := by decide +kernel
example : (do dzdensityLoad (← pic 3 3 "--x------")) = .ok 0 := by decide +kernel
example : (do dzdensityLoad (← pic 3 3 "--------x")) = .ok 33 := by decide +kernel
example : (do dzdensityLoad (← pic 3 3 "------x--")) = .ok 0 := by decide +kernel
example : (do dzdensityLoad (← pic 3 3 "----x----")) = .ok 33 := by decide +kernel
example : (do dzdensityLoad (← pic 3 3 "---x----x")) = .ok 33 := by decide +kernel
example : (do dzdensityLoad (← pic 3 3 "--x-----x")) = .ok 33 := by decide +kernel
example : (do dzdensityLoad (← pic 3 5 "--x--x-----x--x")) = .ok 33 := by decide +kernel
example : (do dzdensityLoad (← pic 5 7 "-------------xx------------------xx")) = .ok 9 := by decide +kernel
example : (do dzdensityLoad (← pic 6 6 "xx----xxx----xxx----xxx----xxx----xx")) = .ok 100 := by decide +kernel
example : (do dzdensityLoad (← pic 6 6 "xxxxxxxxxxxxxxxxxxxxxxxxxxxxxxxxxxxx")) = .ok 100 := by decide +kernel
example : (do dzdensityLoad (← pic 6 3 "xx------xx------xx")) = .ok 100 := by decide +kernel
example : (do dzdensityLoad (← pic 6 3 "xxxxxxxxxxxxxxxxxx")) = .ok 100 := by decide +kernel

/-! `tests/strategies/test_alternations.cpp` -/

def altA : String := "-xxxx-xx--xxxx--xxxxxxxxxx----xx--xx-xxxx-"
def altB : String := "-x--x-xx--xxxx--xxxxxxxxxx----xx--xx-xxxx-"
def altOf (s : String) : Res (List (Bool × Nat)) := do
  let i ← pic 6 7 s
  let r ← i.rotate90
  alternationsLoad i r

example : altOf altA = .ok [(true, 3), (true, 2), (true, 1), (true, 1), (true, 5), (true, 1), (true, 3)] := by decide +kernel
example : altOf altB = .ok [(true, 3), (true, 2), (true, 3), (true, 1), (false, 4), (true, 1), (true, 3)] := by decide +kernel
example : (do arrayCompute (← altOf altA) (← altOf altA)) = .ok 100 := by decide +kernel
example : (do arrayCompute (← altOf altA) (← altOf altB)) = .ok (5 * 100 / 7) := by decide +kernel
example : (do arrayCompute (← altOf altB) (← altOf altA)) = .ok (5 * 100 / 7) := by decide +kernel

/-! `tests/test_image.cpp`: the files are read with the default luminance -/

def image1 : List UInt8 :=
  [80, 52, 10, 35, 32, 67, 82, 69, 65, 84, 79, 82, 58, 32, 71, 73, 77, 80, 32, 80, 78, 77, 32, 70, 105, 108, 116, 101, 114, 32, 86,
    101, 114, 115, 105, 111, 110, 32, 49, 46, 49, 10, 56, 32, 49, 49, 10, 255, 255, 255, 195, 249, 193, 153, 153, 193, 255, 255]

def image2 : List UInt8 :=
  [80, 54, 10, 35, 32, 67, 82, 69, 65, 84, 79, 82, 58, 32, 71, 73, 77, 80, 32, 80, 78, 77, 32, 70, 105, 108, 116, 101, 114, 32, 86,
    101, 114, 115, 105, 111, 110, 32, 49, 46, 49, 10, 56, 32, 49, 52, 10, 50, 53, 53, 10, 8, 36, 107, 8, 36, 107, 8, 36, 107, 8, 36,
    107, 8, 36, 107, 8, 36, 107, 8, 36, 107, 8, 36, 107, 8, 36, 107, 8, 36, 107, 8, 36, 107, 8, 36, 107, 8, 36, 107, 8, 36, 107, 8,
    36, 107, 8, 36, 107, 8, 36, 107, 8, 36, 107, 8, 36, 107, 8, 36, 107, 8, 36, 107, 8, 36, 107, 8, 36, 107, 8, 36, 107, 8, 36, 107,
    8, 36, 107, 8, 36, 107, 8, 36, 107, 8, 36, 107, 8, 36, 107, 8, 36, 107, 8, 36, 107, 8, 36, 107, 8, 36, 107, 255, 255, 255, 255,
    255, 255, 255, 255, 255, 255, 255, 255, 8, 36, 107, 8, 36, 107, 8, 36, 107, 255, 255, 255, 255, 255, 255, 8, 36, 107, 8, 36, 107,
    255, 255, 255, 255, 255, 255, 8, 36, 107, 8, 36, 107, 255, 255, 255, 255, 255, 255, 8, 36, 107, 8, 36, 107, 255, 255, 255, 255,
    255, 255, 8, 36, 107, 8, 36, 107, 255, 255, 255, 255, 255, 255, 255, 255, 255, 255, 255, 255, 255, 255, 255, 255, 255, 255, 8, 36,
    107, 8, 36, 107, 255, 255, 255, 255, 255, 255, 8, 36, 107, 8, 36, 107, 8, 36, 107, 8, 36, 107, 8, 36, 107, 8, 36, 107, 255, 255,
    255, 255, 255, 255, 8, 36, 107, 8, 36, 107, 255, 255, 255, 255, 255, 255, 8, 36, 107, 8, 36, 107, 8, 36, 107, 255, 255, 255, 255,
    255, 255, 255, 255, 255, 255, 255, 255, 8, 36, 107, 8, 36, 107, 8, 36, 107, 8, 36, 107, 8, 36, 107, 8, 36, 107, 8, 36, 107, 8, 36,
    107, 8, 36, 107, 8, 36, 107, 8, 36, 107, 8, 36, 107, 8, 36, 107, 8, 36, 107, 8, 36, 107, 8, 36, 107, 8, 36, 107, 8, 36, 107, 8,
    36, 107, 8, 36, 107, 8, 36, 107, 8, 36, 107, 8, 36, 107, 8, 36, 107, 8, 36, 107, 8, 36, 107]

def imageOf (c : List UInt8) : Res Image := loadImage ⟨true, true, c.length, c, []⟩ 128

example : (do imageShow (← imageOf image1)) = .ok (bytes
    "::::::::::\n:--------:\n:--------:\n:--------:\n:--xxxx--:\n:-----xx-:\n:--xxxxx-:\n:-xx--xx-:\n:-xx--xx-:\n:--xxxxx-:\n:--------:\n:--------:\n::::::::::\n") := by decide +kernel
example : (do imageShow (← imageOf image2)) = .ok (bytes
    "::::::::::\n:--------:\n:--------:\n:--------:\n:--------:\n:--xxxx--:\n:-xx--xx-:\n:-xx--xx-:\n:-xxxxxx-:\n:-xx-----:\n:-xx--xx-:\n:--xxxx--:\n:--------:\n:--------:\n:--------:\n::::::::::\n") := by decide +kernel
example : (do let i ← imageOf image2; imageShow (← i.rotate90)) = .ok (bytes
    "::::::::::::::::\n:--------------:\n:-----xxx-x----:\n:----xxxx-xx---:\n:----x--x--x---:\n:----x--x--x---:\n:----xxxxxxx---:\n:-----xxxxx----:\n:--------------:\n::::::::::::::::\n") := by decide +kernel

/-- The pixels of a range of 8 cells that starts at `{0, 5}`. -/
def rangeOf (get : Nat → Res Bool) (i : Image) : Res (List Bool) :=
  (List.range 8).mapM fun k => get (i.toSizeT 0 5 + k)

example : (do let i ← imageOf image2; rangeOf (normalPixel i.data) i) =
    .ok [false, true, true, false, false, true, true, false] := by decide +kernel
example : (do let i ← imageOf image2; rangeOf (anyPixel i.data 3 8) i) =
    .ok [false, true, true, true, true, true, true, false] := by decide +kernel
example : (do allLetters (← imageOf image2).data 8 0) = .ok false := by decide +kernel
example : (do allLetters (← imageOf image2).data 8 40) = .ok false := by decide +kernel
example : (do altRow (← imageOf image2) 5) = .ok (false, 5) := by decide +kernel

/-! `tests/loader2/test_glyphs_loader.cpp` -/

def twoGlyphs : Res (List LGlyph) := do
  let a ← pic 3 3 "x--xxxx-x"
  let b ← pic 3 3 "x-Xxxxx-x"
  return [⟨a, [⟨bytes "h", bytes "imaginary", 0⟩]⟩, ⟨b, [⟨bytes "H", bytes "imaginary", 0⟩]⟩]

def twoGlyphsText : List Nat := bytes "3 3 x--xxxx-x\n1\nh imaginary 0\n3 3 x-Xxxxx-x\n1\nH imaginary 0\n"

example : (do glyphsWrite (← twoGlyphs)) = .ok twoGlyphsText := by decide +kernel
example : (do let r ← glyphsRead (IS.of twoGlyphsText) []; return r.1) = twoGlyphs := by decide +kernel

/-! `tests/loader2/test_datas_loader.cpp` -/

def simOfPics (f : Feat) (turned : Bool) (k : Nat) (s t : String) : Res Nat := do
  let i ← pic 3 3 s
  let j ← pic 3 3 t
  let i' ← if turned then i.rotate90 else .ok i
  let j' ← if turned then j.rotate90 else .ok j
  let a ← f.load i' i
  let b ← f.load j' j
  (intervalRel k).compute a.toNum b.toNum

example : simOfPics .hgravity false 200 "x--xxxx-x" "x--xxxx-x" = .ok 100 := by decide +kernel
example : simOfPics .hgravity false 200 "x--xxxx-x" "x-xxxxx-x" = .ok 83 := by decide +kernel
example : simOfPics .hgravity true 200 "x--xxxx-x" "x--xxxx-x" = .ok 100 := by decide +kernel
example : simOfPics .hgravity true 200 "x--xxxx-x" "x-xxxxx-x" = .ok 90 := by decide +kernel
example : simOfPics .hdirection false 200 "x--xxxx-x" "x--xxxx-x" = .ok 100 := by decide +kernel
example : simOfPics .hdirection false 200 "x--xxxx-x" "x-xxxxx-x" = .ok 83 := by decide +kernel

/-! `tests/utils/reindex.cpp` -/

example : reindex 0 [0, 1, 2, 3, 4] [0, 1, 2, 3, 4] = .ok ([0, 1, 2, 3, 4].map some) := by decide +kernel
example : reindex 0 [4, 3, 2, 1, 0] [0, 1, 2, 3, 4] = .ok ([4, 3, 2, 1, 0].map some) := by decide +kernel
example : reindex 0 [3, 0, 2, 4, 1] [4, 3, 2, 1, 0] = .ok ([1, 4, 2, 0, 3].map some) := by decide +kernel

/-! `tests/container/test_trie.cpp`, `tests/spell/test_dictionary.cpp`. The position of a node without children is not checked by the
test, which shows 0 for it. -/

def words : List (List Nat) := [bytes "abcd", bytes "abce", bytes "abcehn", bytes "abcehne", bytes "abcehnu", bytes "abcej", bytes "azerty", bytes "abc", bytes "bob", bytes "coco", bytes "paco", bytes "parano"]

def shown (E : List FNode) : List FNode := E.map fun n => if n.count = 0 then { n with pos := 0 } else n

def flat : List FNode :=
  [⟨97, 4, 2, false⟩, ⟨98, 5, 1, false⟩, ⟨99, 5, 1, false⟩, ⟨112, 5, 1, false⟩, ⟨98, 5, 1, false⟩, ⟨122, 5, 1, false⟩, ⟨111, 5, 1,
    false⟩, ⟨111, 5, 1, false⟩, ⟨97, 5, 2, false⟩, ⟨99, 6, 2, true⟩, ⟨101, 7, 1, false⟩, ⟨98, 0, 0, true⟩, ⟨99, 6, 1, false⟩, ⟨99, 6,
    1, false⟩, ⟨114, 6, 1, false⟩, ⟨100, 0, 0, true⟩, ⟨101, 5, 2, true⟩, ⟨114, 6, 1, false⟩, ⟨111, 0, 0, true⟩, ⟨111, 0, 0, true⟩,
    ⟨97, 4, 1, false⟩, ⟨104, 4, 1, false⟩, ⟨106, 0, 0, true⟩, ⟨116, 3, 1, false⟩, ⟨110, 3, 1, false⟩, ⟨110, 3, 2, true⟩, ⟨121, 0, 0,
    true⟩, ⟨111, 0, 0, true⟩, ⟨101, 0, 0, true⟩, ⟨117, 0, 0, true⟩]

example : (do return shown (← dictOf insertionSort words)) = .ok flat := by decide +kernel
example : (do return (← rootRange (← dictOf insertionSort words))) = .ok (0, 4) := by decide +kernel
example : (do let E ← dictOf insertionSort words
              let r ← dictRead (IS.of (dictWrite E)) []
              return decide (r.dict = E)) = .ok true := by decide +kernel
example : (do return (← dictOf insertionSort [bytes "à"]).length) = .ok 1 := by decide +kernel

/-! `tests/spell/test_word_disambiguouser.cpp` -/

def read (t : List (List String)) : Res (Bool × List Nat) := do
  let E ← dictOf insertionSort (words ++ [bytes "à"])
  disambiguous E (t.map (·.map fun s => bytes s ++ [0])) []

example : read [["a"], ["b", "z"], ["e"], ["r"], ["u", "t"], ["y"]] = .ok (true, bytes "azerty") := by decide +kernel
example : read [["a"], ["b", "z", "i"], ["e"], ["r"], ["u", "t"], ["y"]] = .ok (true, bytes "azerty") := by decide +kernel
example : (do return (← read [["a"], ["b", "z", "i"], ["e"], ["r"], ["u", "t"], ["y"], ["y"]]).1) = .ok false := by decide +kernel
example : (do return (← read [["a"], ["b", "z", "i"], ["e"], ["r"], ["u", "t"]]).1) = .ok false := by decide +kernel
example : read [["à"]] = .ok (true, bytes "à") := by decide +kernel

/-! `tests/ocr2/test_compute_image.cpp`. The literals of the test are the nearest doubles. The list of strategies is `hdirection` on the
image and on the image turned; as complex strategies they have the relationship of an interval. -/

def turnT : String := "xxxxx--x----x----x----x--"
def turnY : String := "x---x-x-x--x-x---x----x--"

/-- The two columns, or the letter's two values. -/
def column (s : Feat × Policy) : Res (List Nat) := do
  let a ← pic 5 5 turnT
  let b ← pic 5 5 turnY
  let x ← loadStrat s a (← a.rotate90)
  let y ← loadStrat s b (← b.rotate90)
  return [x.toNum, y.toNum]

def simpleOf (s : Feat × Policy) : Res Simple := do
  return ⟨200, fun i r => do return (← loadStrat s i r).toNum, ← column s⟩

def stratOf (s : Feat × Policy) (tab : List Nat) : Strat :=
  ⟨Nat, intervalRel 200, fun i r => do return (← loadStrat s i r).toNum, tab⟩

/-- Two entries; each has the probability expected of its glyph. -/
def probsAre (ps : List (Nat × Double)) (p q : Double) : Bool :=
  decide (ps.length = 2) && ps.all fun x => decide (x.2.n = if x.1 = 0 then p.n else q.n)

def d100 : Double := Double.ofPct 100
def d92 : Double := Double.ofPct 92
def d8464 : Double := (Double.ofNat 8464).div (Double.ofNat 10000)

/-- `compute_simple_universe` for a letter. -/
def simpleStep (t : String) : Res (List (Nat × Double)) := do
  let i ← pic 5 5 t
  let s ← simpleOf (.hdirection, .img)
  let s' ← simpleOf (.hdirection, .img90)
  computeSimpleUniverse 2 s [s'] (indexesOrdered insertionSort s.tab) i (← i.rotate90)

/-- `reduce_complexe_universe` for a letter. -/
def complexStep (t : String) (ps : List (Nat × Double)) : Res (List (Nat × Double)) := do
  let i ← pic 5 5 t
  let s := stratOf (.hdirection, .img) (← column (.hdirection, .img))
  let s' := stratOf (.hdirection, .img90) (← column (.hdirection, .img90))
  reduceComplex i (← i.rotate90) [s, s'] ps

/-- `reduce_exclusive_universe` for a letter. -/
def exclusiveStep (t : String) (ps : List (Nat × Double)) : Res (List (Nat × Double)) := do
  let i ← pic 5 5 t
  let s := stratOf (.hdirection, .img) (← column (.hdirection, .img))
  let s' := stratOf (.hdirection, .img90) (← column (.hdirection, .img90))
  let w ← dataIndexesByWords [[⟨0, 0⟩], [⟨1, 0⟩]]
  reduceExclusive w i (← i.rotate90) [s, s'] ps

example : (do return probsAre (← simpleStep turnT) d100 d92) = .ok true := by decide +kernel
example : (do return probsAre (← simpleStep turnY) d92 d100) = .ok true := by decide +kernel
example : (do return probsAre (← complexStep turnT (← simpleStep turnY)) d92 d92) = .ok true := by decide +kernel
example : (do return probsAre (← complexStep turnY (← complexStep turnT (← simpleStep turnY))) d8464 d92) = .ok true := by decide +kernel
example : (do return probsAre (← exclusiveStep turnT (← complexStep turnY (← complexStep turnT (← simpleStep turnY)))) d8464 d92) =
    .ok true := by decide +kernel

end Ppocr.Tests

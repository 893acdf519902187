import Verif.Proofs.Session
import Verif.Proofs.Number
import Verif.Proofs.Outcome
import Verif.Props.Damage

/-! # What `ocr2_extract_text` prints (C75, C76) -/

namespace Ppocr.Props
open Ppocr Spec

/-- The files can be read, and hold this. -/
structure Loads (S : StdSort) (f : ProgFiles) (d : Datas) (g : RGlyphs) (infos : List WordInfo) (E : List FNode) : Prop where
  dict : loadDict f.dict = .ok E
  datas : loadDatas f.datas = .ok d
  glyphs : loadGlyphs f.glyphs = .ok g
  infos : loadInfos S g f.infos = .ok infos

/-- The heading for these files. -/
def headingOf (f : ProgFiles) (E : List FNode) (n : Nat) : List Nat := heading (f.dict.map fun _ => !E.isEmpty) n

section
variable {P : Type} [ScoreDbl P]

/-- **C75**: a run that answers prints the heading, every different letter once, where it appears first, with the words it
was recognised as, and the report. -/
theorem C75_run (S : StdSort) (nan : List Nat) (f : ProgFiles) (imgs : List Image) (d : Datas) (g : RGlyphs)
    (W : Nat → List Nat) (infos : List WordInfo) (ws : List (List Nat)) (E : List FNode) (i : Image) (ans : Answer)
    (hl : Loads S f d g infos E) (hi : loadImage f.image 128 = .ok i) (hf : Files S imgs d g W infos ws E) (hn : LineImage i)
    (ha : program P S f = .ok ans) :
    ∃ bw bs as, checkTables g.views d = .ok bw ∧ segment i = .ok bs ∧ Pictures i bs as ∧ as.length = ans.count ∧
      session P S nan f = ⟨headingOf f E imgs.length ++
        (firstSeen as).flatMap (described (setupOf S g.views d bw : Setup P) fun k => encAll (W k)) ++
        report ans (showRate nan ans), .ok 0⟩ := by
  obtain ⟨bw, hb, _⟩ := C33_by_words g.views hf.views
  have hsize := learnt_size hf.learnt
  have hck : checkTables g.views d = .ok bw := by
    unfold checkTables
    rw [if_neg (by rw [hsize, hf.same]; simp), hb]
  unfold program at ha
  rw [hl.dict, Res.ok_bind, hl.datas, Res.ok_bind, hl.glyphs, Res.ok_bind, if_neg (by rw [hsize, hf.same]; simp), hl.infos,
    Res.ok_bind, hck, Res.ok_bind, hi, Res.ok_bind] at ha
  have hcmp : Compared imgs g.views i := by
    apply Classical.byContradiction
    intro h
    have := readLine_blocked (P := P) S imgs d g W infos E i hf.learnt hf.letters hf.same hf.views hf.known hn h
    unfold readLine at this
    rw [hck, Res.ok_bind, ha] at this
    cases this
  have hset : ∀ bs as, segment i = .ok bs → Pictures i bs as → ∀ a ∈ as,
      ∃ r val n, a.rotate90 = .ok r ∧ SetupOk (setupOf S g.views d bw : Setup P) val n a r := by
    intro bs as h1 h2 a ha
    have hla := hn.pictures h1 h2 a ha
    obtain ⟨r, er, _⟩ := hla.rotate
    exact ⟨r, _, _, er, comparable_ok (P := P) S g.views bw hf.learnt hf.letters hf.same hb hf.views hla er (hcmp bs as h1 h2 a ha)⟩
  have hg : WordsRead (setupOf S g.views d bw : Setup P) g := by
    intro vs hvs v hv
    have := hf.known vs hvs v hv
    exact ⟨_, getWord_of this.holds this.small⟩
  have hsz := hn.size
  obtain ⟨bs, e, hlen, hbox, _⟩ := C13_segmentation_partial i hn.wf hn.w hn.h (by omega) hn.row
  have hin : ∀ b ∈ bs, 0 < b.w ∧ 0 < b.h ∧ b.x + b.w ≤ i.bounds.w ∧ b.y + b.h ≤ i.bounds.h := by
    intro b hb
    obtain ⟨⟨x0, c⟩, _⟩ := hbox b hb
    exact ⟨c.wpos, c.hpos, c.right, c.bottom⟩
  obtain ⟨as, hp, hal⟩ := pictures_exist hn.wf bs hin
  have hcut := shown_cut hi (by simp only [W32] at hsz; omega) e hp
  have hread : ∀ a ∈ as, Readable (setupOf S g.views d bw : Setup P) g a ∧ imageShow a = .ok (framed a) ∧
      ∀ vs, candidates (setupOf S g.views d bw : Setup P) a = .ok vs →
        ∀ v ∈ vs, getWord g.buf v.word = .ok ((fun k => encAll (W k)) v.word) := by
    intro a ha
    have hla := hn.pictures e hp a ha
    obtain ⟨r, val, n, e2, ok⟩ := hset bs as e hp a ha
    have hA := hla.area
    refine ⟨readable_of hla.wf hla.w hla.h ?_ e2 ok hg, imageShow_ok (hcut a ha).2.1 (hcut a ha).1.len (hcut a ha).1.pixels, ?_⟩
    · simp only [W32]
      omega
    · intro vs hvs v hv
      have := sublist_known hf.known (List.Sublist.refl vs) (candidates_views e2 ok hvs) v hv
      exact getWord_of this.holds this.small
  obtain ⟨T, l, e2, e3, e4⟩ := lineLoopOut_ok (s := (setupOf S g.views d bw : Setup P)) (g := g)
    (W := fun k => encAll (W k)) hn.wf (by omega) (i.bounds.w + 1) 0 bs as
    (Line.init P) [] [] e hin hp hread (lineInv_init _) rfl (Nat.zero_le _) rfl
    (by show 0 + _ < _; have := hn.wf.w_lt; omega) rfl
  rw [List.nil_append, show firstSeen [] = [] from rfl, List.flatMap_nil, List.nil_append] at e4
  have hout := extractTextOut_ok nan e2 e3 ha
  refine ⟨bw, bs, as, hck, e, hp, ?_, ?_⟩
  · obtain ⟨bs', as', l', g1, _, _, g2, _, _, g3, _⟩ := C56_same_list _ g i hn.wf hn.w hn.h hsz hn.row hg hset
    rw [e] at g1
    cases g1
    rw [e2] at g2
    cases g2
    rw [extractText_count e2 ha, g3, hal]
  · unfold session
    rw [loadDictOut_ok hl.dict, act_bind_ok rfl, hl.datas, mute_ok_bind, say_bind, hl.glyphs, mute_ok_bind, say_bind,
      if_neg (by rw [hsize, hf.same]; simp), hl.infos, mute_ok_bind, hck, mute_ok_bind, say_bind, hi, mute_ok_bind, hout]
    unfold headingOf
    rw [heading_eq, hf.same, hsize, report_eq, e4]
    simp only [List.append_assoc]

end

/-- **C75**, runs that do not answer: an exception before the line, and what was printed shows how far the run came. -/
theorem C75_stops (P : Type) [Dbl P] (S : StdSort) (nan : List Nat) (f : ProgFiles) :
    (loadDict f.dict = .throw → session P S nan f = ⟨[], .throw⟩) ∧
    ∀ E, loadDict f.dict = .ok E →
      (loadDatas f.datas = .throw → session P S nan f = ⟨dictLine (f.dict.map fun _ => !E.isEmpty), .throw⟩) ∧
      ∀ d, loadDatas f.datas = .ok d →
        (loadGlyphs f.glyphs = .throw → session P S nan f = ⟨dictLine (f.dict.map fun _ => !E.isEmpty) ++
          lit " ## datas.size(): " ++ showNat d.size ++ lit "\n", .throw⟩) ∧
        ∀ g, loadGlyphs f.glyphs = .ok g →
          (g.views.length ≠ d.size ∨ loadInfos S g f.infos = .throw →
            session P S nan f = ⟨dictLine (f.dict.map fun _ => !E.isEmpty) ++ lit " ## datas.size(): " ++ showNat d.size ++
              lit "\n" ++ lit " ## glyphs.size(): " ++ showNat g.views.length ++ lit "\n", .throw⟩) ∧
          ∀ infos bw, loadInfos S g f.infos = .ok infos → checkTables g.views d = .ok bw →
            loadImage f.image 128 = .throw → session P S nan f = ⟨headingOf f E d.size, .throw⟩ := by
  have hnl : lit "\n" = [10] := by decide +kernel
  refine ⟨fun h => ?_, fun E hE => ⟨fun h => ?_, fun d hd => ⟨fun h => ?_, fun g hg => ⟨fun h => ?_, ?_⟩⟩⟩⟩
  · unfold session
    rw [loadDictOut_throw h]
    rfl
  · unfold session
    rw [loadDictOut_ok hE, act_bind_ok rfl, h, mute_throw_bind]
    simp [mute]
  · unfold session
    rw [loadDictOut_ok hE, act_bind_ok rfl, hd, mute_ok_bind, say_bind, h, mute_throw_bind, hnl]
    simp [mute]
  · unfold session
    rw [loadDictOut_ok hE, act_bind_ok rfl, hd, mute_ok_bind, say_bind, hg, mute_ok_bind, say_bind, hnl]
    by_cases hs : g.views.length ≠ d.size
    · rw [if_pos hs]
      simp [mute]
    · rw [if_neg hs]
      rw [h.resolve_left hs, mute_throw_bind]
      simp [mute]
  · intro infos bw h1 h2 h3
    have hs : g.views.length = d.size := by
      unfold checkTables at h2
      split at h2
      · cases h2
      · omega
    unfold session headingOf
    rw [loadDictOut_ok hE, act_bind_ok rfl, hd, mute_ok_bind, say_bind, hg, mute_ok_bind, say_bind, if_neg (by omega), h1,
      mute_ok_bind, h2, mute_ok_bind, say_bind, h3, mute_throw_bind, heading_eq, hs]
    simp [mute]

/-- **C75**, how any run ends: printing changes nothing. The exit status is 0 when the reading of the line that the other theorems are
about answers; else the run ends as that reading does: by an exception, a failed assertion, undefined behaviour or not at all. -/
theorem C75_outcome (P : Type) [Dbl P] (S : StdSort) (nan : List Nat) (f : ProgFiles)
    (hi : ∀ i, loadImage f.image 128 = .ok i → i.bounds.w * i.bounds.h + i.bounds.w ≤ W32) :
    (session P S nan f).res = match program P S f with
      | .ok _ => .ok 0
      | .throw => .throw
      | .abort => .abort
      | .ub => .ub
      | .diverge => .diverge := by
  have key : (session P S nan f).res = program P S f >>= fun _ => .ok 0 := by
    unfold session program
    rw [act_res_bind, loadDictOut_res, Res.bind_assoc]
    refine res_bind_same fun E _ => ?_
    rw [act_res_bind, Res.bind_assoc]
    refine res_bind_same fun d _ => ?_
    rw [act_res_bind]
    show (Res.ok () >>= _) = _
    rw [Res.ok_bind, act_res_bind, Res.bind_assoc]
    refine res_bind_same fun g _ => ?_
    rw [act_res_bind]
    show (Res.ok () >>= _) = _
    rw [Res.ok_bind]
    by_cases hs : g.views.length ≠ d.size
    · rw [if_pos hs, if_pos hs]
      rfl
    · rw [if_neg hs, if_neg hs, act_res_bind, Res.bind_assoc]
      refine res_bind_same fun infos _ => ?_
      rw [act_res_bind, Res.bind_assoc]
      refine res_bind_same fun bw _ => ?_
      rw [act_res_bind]
      show (Res.ok () >>= _) = _
      rw [Res.ok_bind, act_res_bind, Res.bind_assoc]
      refine res_bind_same fun i e => ?_
      have e : loadImage f.image 128 = .ok i := e
      have hp := loadImage_picture e
      exact extractTextOut_res nan _ g infos E hp.wf hp.w hp.h (hi i e)
  rw [key]
  cases program P S f <;> rfl

/-- A picture whose first letter is low (C62): the letter, twice in the line, is printed before the run is undefined. A picture that is not one: an
exception. -/
example : (session Frac insertionSort [] { pairFiles with image := ppm lowFirst }).res = .ub ∧
    (session Frac insertionSort [] { pairFiles with image := ppm lowFirst }).out =
      bytes " ## datas.size(): 2\n ## glyphs.size(): 2\n ## go\n" ++ bytes "::::\n:xx:\n:xx:\n::::\na \n" ∧
    session Frac insertionSort [] { pairFiles with image := ⟨true, true, 9, List.replicate 9 65, []⟩ } =
      ⟨bytes " ## datas.size(): 2\n ## glyphs.size(): 2\n ## go\n", .throw⟩ := by
  refine ⟨by decide +kernel, by decide +kernel, by decide +kernel⟩

/-- The files of the block and the bar: the block, its word, the bar and its word, once each; then the report. -/
theorem C75_pair : session Frac insertionSort [] pairFiles =
    ⟨bytes " ## datas.size(): 2\n ## glyphs.size(): 2\n ## go\n" ++
      bytes "::::\n:xx:\n:xx:\n::::\na \n:::\n:x:\n:x:\n:::\n! \n" ++
      bytes " ## result: a! a\nunrecognized_count: 0\ncount: 3\nunrecognized_rate: 0\n", .ok 0⟩ := by decide +kernel

/-- A picture is described once, and every picture is. -/
theorem C75_each_once (as : List Image) : (firstSeen as).Nodup ∧ ∀ a, a ∈ firstSeen as ↔ a ∈ as :=
  ⟨firstSeen_nodup as, fun _ => firstSeen_mem⟩

example : firstSeen [block, bar, block] = [block, bar] := by decide

/-! ### C76 -/

/-- The letters that nothing was found for. -/
def notFound {P : Type} [Dbl P] (s : Setup P) (as : List Image) : Nat := (as.filter fun a => candidates s a = .ok []).length

/-- Full statement of **C76**: the report counts all letters and, at least, all letters that nothing was found for; the rate
is the percentage, here when this is a whole number. -/
def C76_statement (P : Type) [Dbl P] (S : StdSort) : Prop :=
  ∀ (imgs : List Image) (d : Datas) (g : RGlyphs) (W : Nat → List Nat) (infos : List WordInfo) (ws : List (List Nat))
    (E : List FNode) (i : Image) (bw : List (List Nat)) (bs : List Box) (as : List Image) (ans : Answer) (nan : List Nat),
    Files S imgs d g W infos ws E → LineImage i → checkTables g.views d = .ok bw → segment i = .ok bs → Pictures i bs as →
    readLine P S g d infos E i = .ok ans →
    (ans.count = as.length ∧ notFound (setupOf S g.views d bw : Setup P) as ≤ ans.unrecognized) ∧
    ∀ r, 0 < ans.count → r * ans.count = 100 * ans.unrecognized → showRate nan ans = showNat r

/-- A `T` and a ring. -/
def tRing : Image := ⟨⟨9, 3⟩, [120, 120, 120, 45, 120, 120, 120, 120, 45, 45, 120, 45, 45, 120, 45, 45, 120, 45,
  45, 120, 45, 45, 120, 120, 120, 120, 45]⟩

/-- The block, a `T` and a ring. -/
def blockTRing : Image := ⟨⟨12, 3⟩, [120, 120, 45, 120, 120, 120, 45, 120, 120, 120, 120, 45,
  120, 120, 45, 45, 120, 45, 45, 120, 45, 45, 120, 45, 45, 45, 45, 45, 120, 45, 45, 120, 120, 120, 120, 45]⟩

/-- Nothing is found for the letters, and nothing is counted or printed: they are in front. -/
theorem C76_in_front : session Frac insertionSort [] { pairFiles with image := ppm tRing } =
    ⟨bytes " ## datas.size(): 2\n ## glyphs.size(): 2\n ## go\n" ++
      bytes ":::::\n:xxx:\n:-x-:\n:-x-:\n:::::\n\n::::::\n:xxxx:\n:x--x:\n:xxxx:\n::::::\n\n" ++
      bytes " ## result: \nunrecognized_count: 0\ncount: 2\nunrecognized_rate: 0\n", .ok 0⟩ := by decide +kernel

/-- Two letters of three: 200 percent. -/
theorem C76_two_of_three : session Frac insertionSort [] { pairFiles with image := ppm blockTRing } =
    ⟨bytes " ## datas.size(): 2\n ## glyphs.size(): 2\n ## go\n" ++
      bytes "::::\n:xx:\n:xx:\n::::\na \n:::::\n:xxx:\n:-x-:\n:-x-:\n:::::\n\n::::::\n:xxxx:\n:x--x:\n:xxxx:\n::::::\n\n" ++
      bytes " ## result: a??\nunrecognized_count: 2\ncount: 3\nunrecognized_rate: 200\n", .ok 0⟩ := by decide +kernel

/-- The block and a `T`. -/
def blockT : Image := ⟨⟨7, 3⟩, [120, 120, 45, 120, 120, 120, 45, 120, 120, 45, 45, 120, 45, 45, 45, 45, 45, 45, 120, 45, 45]⟩

/-- Reading a line with the features of the block and the bar; the letters with nothing found besides. -/
def lookTwo (i : Image) (as : List Image) : Res (Answer × Nat) := do
  let d ← Datas.empty.loadAll [block, bar]
  let E ← dictOf insertionSort []
  let bw ← checkTables twoWords.views d
  let a ← readLine Frac insertionSort twoWords d [] E i
  return (a, notFound (setupOf insertionSort twoWords.views d bw : Setup Frac) as)

def tPic : Image := ⟨⟨3, 3⟩, [120, 120, 120, 45, 120, 45, 45, 120, 45]⟩

def ringPic : Image := ⟨⟨4, 3⟩, [120, 120, 120, 120, 120, 45, 45, 120, 120, 120, 120, 120]⟩

theorem C76_not_counted : lookTwo tRing [tPic, ringPic] = .ok (⟨[], 0, 2⟩, 2) := by decide +kernel

theorem C76_one_of_two : lookTwo blockT [block, tPic] = .ok (⟨[97, 63], 1, 2⟩, 1) := by decide +kernel

theorem lookTwo_split {i : Image} {as : List Image} {a : Answer} {n : Nat} (h : lookTwo i as = .ok (a, n)) :
    ∃ d E bw, Files insertionSort [block, bar] d twoWords twoText [] [] E ∧ checkTables twoWords.views d = .ok bw ∧
      readLine Frac insertionSort twoWords d [] E i = .ok a ∧
      notFound (setupOf insertionSort twoWords.views d bw : Setup Frac) as = n := by
  obtain ⟨d, E, ed, eE, hf⟩ := twoFiles
  unfold lookTwo at h
  rw [ed, Res.ok_bind, eE, Res.ok_bind] at h
  obtain ⟨bw, e1, h⟩ := Res.bind_eq_ok.1 h
  obtain ⟨a', e2, h⟩ := Res.bind_eq_ok.1 h
  cases h
  exact ⟨d, E, bw, hf, e1, e2, rfl⟩

theorem tRing_segment : segment tRing = .ok [⟨0, 0, 3, 3⟩, ⟨4, 0, 4, 3⟩] := by decide +kernel

theorem blockT_segment : segment blockT = .ok [⟨0, 0, 2, 2⟩, ⟨3, 0, 3, 3⟩] := by decide +kernel

theorem tRing_line : LineImage tRing := by
  refine ⟨⟨rfl, by decide, by decide, by decide⟩, by decide, by decide, by decide, .inl (by decide), ?_⟩
  intro bs h
  rw [tRing_segment] at h
  cases h
  decide

theorem blockT_line : LineImage blockT := by
  refine ⟨⟨rfl, by decide, by decide, by decide⟩, by decide, by decide, by decide, .inl (by decide), ?_⟩
  intro bs h
  rw [blockT_segment] at h
  cases h
  decide

/-- **C76** is false for the count: letters in front that nothing was found for. -/
theorem C76_false : ¬ C76_statement Frac insertionSort := by
  intro h
  obtain ⟨d, E, bw, hf, e1, e2, e3⟩ := lookTwo_split C76_not_counted
  have := (h _ _ _ _ _ _ _ tRing bw _ [tPic, ringPic] _ [] hf tRing_line e1 tRing_segment
    ⟨by decide, by decide, trivial⟩ e2).1.2
  rw [e3] at this
  exact absurd this (by decide)

/-- And for the rate: one letter of two gives 100. -/
theorem C76_rate_false : ¬ C76_statement Frac insertionSort := by
  intro h
  obtain ⟨d, E, bw, hf, e1, e2, _⟩ := lookTwo_split C76_one_of_two
  have := (h _ _ _ _ _ _ _ blockT bw _ [block, tPic] _ [] hf blockT_line e1 blockT_segment
    ⟨by decide, by decide, trivial⟩ e2).2 50 (by decide) (by decide)
  revert this
  decide +kernel

/-- **C76**, what is printed as the rate: a hundred times the number of letters not recognised, 0/0 without letters. -/
theorem C76_rate_exact (nan : List Nat) (a : Answer) (h : a.unrecognized < 10 ^ 4) :
    showRate nan a = if a.count = 0 then nan else showNat (100 * a.unrecognized) := by
  unfold showRate
  split
  · rfl
  · have e : umul a.unrecognized 100 = 100 * a.unrecognized := by
      unfold umul
      rw [Nat.mod_eq_of_lt (by simp only [W32]; omega)]
      omega
    rw [e]
    unfold showDouble
    rw [if_pos (by omega)]

/-- **C76**, what is printed as the rate for any counts: a hundred times the number of letters not recognised (in 32 bits),
from a million on the nearest number of six digits, with an exponent. -/
theorem C76_rate_shown (nan : List Nat) (a : Answer) :
    (a.count = 0 → showRate nan a = nan) ∧
    (a.count ≠ 0 → a.unrecognized * 100 % 2 ^ 32 < 10 ^ 6 → showRate nan a = showNat (a.unrecognized * 100 % 2 ^ 32)) ∧
    (a.count ≠ 0 → 10 ^ 6 ≤ a.unrecognized * 100 % 2 ^ 32 →
      ∃ m e, NearestSix (a.unrecognized * 100 % 2 ^ 32) m e ∧ WrittenSix m e (showRate nan a)) := by
  unfold showRate umul
  rw [show W32 = 2 ^ 32 from rfl]
  refine ⟨fun h => by rw [if_pos h], fun h h2 => ?_, fun h h2 => ?_⟩
  · rw [if_neg h]
    unfold showDouble
    rw [if_pos h2]
  · rw [if_neg h]
    exact showDouble_six h2

/-- 12345 letters not recognised are shown as 1.2345e+06, 999999 as 9.99999e+07. -/
example : showDouble 1234500 = bytes "1.2345e+06" ∧ showDouble 99999900 = bytes "9.99999e+07" ∧
    showDouble 1234565 = bytes "1.23456e+06" ∧ showDouble 1234575 = bytes "1.23458e+06" ∧
    showDouble 9999996 = bytes "1e+07" ∧ showDouble 9999995 = bytes "1e+07" ∧ showDouble 9999994 = bytes "9.99999e+06" ∧
    showDouble 999999 = bytes "999999" ∧ showDouble 12345678901 = bytes "1.23457e+10" := by decide +kernel

/-- **C76**, partial: the rate is a percentage when no letter is counted as not recognised, or there is only one letter; else
it is not. Missing: other lines (`C76_two_of_three`). -/
theorem C76_rate_partial (nan : List Nat) (a : Answer) (r : Nat) (h : a.unrecognized < 10 ^ 4) (hc : 0 < a.count)
    (hr : r * a.count = 100 * a.unrecognized) : showRate nan a = showNat r ↔ a.unrecognized = 0 ∨ a.count = 1 := by
  rw [C76_rate_exact nan a h, if_neg (by omega)]
  constructor
  · intro e
    have e2 := congrArg decVal e
    rw [showNat_val, showNat_val] at e2
    subst e2
    by_cases h0 : a.unrecognized = 0
    · exact .inl h0
    · right
      have : 100 * a.unrecognized * a.count = 100 * a.unrecognized * 1 := by omega
      exact Nat.eq_of_mul_eq_mul_left (by omega) this
  · rintro (h0 | h1)
    · rw [h0] at hr ⊢
      have : r = 0 := by
        rcases Nat.mul_eq_zero.1 hr with h | h
        · exact h
        · omega
      rw [this]
    · rw [h1] at hr
      rw [show r = 100 * a.unrecognized by omega]

/-- **C75**, with fewer than three arguments: nothing is printed on the output and the exit status is 1; else the first three
name the glyphs, the datas and the picture, the next two (if any) the heights of words and the dictionary, and the
others are not looked at. -/
theorem C75_usage (P : Type) [Dbl P] (S : StdSort) (nan : List Nat) (D : Disk) (args : List (List Nat)) :
    (args.length < 3 → ocr2Main P S nan D args = ⟨[], .ok 1⟩) ∧
    (∀ glyphs datas image more, args = [glyphs, datas, image] ++ more →
      (more = [] → ocr2Main P S nan D args = session P S nan ⟨D.text glyphs, D.text datas, D.image image, none, none⟩) ∧
      (∀ infos, more = [infos] →
        ocr2Main P S nan D args = session P S nan ⟨D.text glyphs, D.text datas, D.image image, some (D.text infos), none⟩) ∧
      ∀ infos dict rest, more = infos :: dict :: rest → ocr2Main P S nan D args =
        session P S nan ⟨D.text glyphs, D.text datas, D.image image, some (D.text infos), some (D.text dict)⟩) := by
  refine ⟨fun h => ?_, ?_⟩
  · rcases args with _ | ⟨a, _ | ⟨b, _ | ⟨c, r⟩⟩⟩
    · rfl
    · rfl
    · rfl
    · simp only [List.length_cons] at h
      omega
  · rintro g d i more rfl
    refine ⟨?_, ?_, ?_⟩
    · rintro rfl
      rfl
    · rintro x rfl
      rfl
    · rintro x y r rfl
      rfl

section
variable {P : Type} [ScoreDbl P]

/-- **C76**, partial: all letters with nothing found are counted if the first letter of the line is recognised as one word
that is no punctuation mark (and has a cell for its bottom, C36). Missing: letters with nothing found among those
in front of the first such letter are dropped without being counted or printed (`C76_in_front`). -/
theorem C76_counted_partial (S : StdSort) (imgs : List Image) (d : Datas) (g : RGlyphs) (W : Nat → List Nat)
    (infos : List WordInfo) (ws : List (List Nat)) (E : List FNode) (i : Image) (bw : List (List Nat)) (bs : List Box)
    (a : Image) (as : List Image) (v : View) (vs : List View) (hf : Files S imgs d g W infos ws E) (hi : LineImage i)
    (hcmp : Compared imgs g.views i) (hck : checkTables g.views d = .ok bw) (hs : segment i = .ok bs) (hp : Pictures i bs (a :: as))
    (hsp : ∀ b bs, segment i = .ok (b :: bs) → LowHeld b bs)
    (hv : candidates (setupOf S g.views d bw : Setup P) a = .ok (v :: vs)) (h1 : OneWord (v :: vs))
    (hm : isSep [W v.word] = false) :
    ∃ ans, readLine P S g d infos E i = .ok ans ∧ ans.count = (a :: as).length ∧
      notFound (setupOf S g.views d bw : Setup P) (a :: as) ≤ ans.unrecognized ∧ ans.unrecognized ≤ ans.count := by
  obtain ⟨bw', bs', as', amb, ans, e1, e2, hp', hal, hl, hr, hc, hle, hcand, -, e, rest, lead, he, hlead, -, hu⟩ :=
    C62_answer_partial (P := P) S imgs d g W infos ws E i hf hi hcmp (by
      intro bw' hck' b' bs' a' as' hs' hp''
      rw [hck] at hck'
      cases hck'
      rw [hs] at hs'
      cases hs'
      cases pictures_unique hp hp''
      refine ⟨hsp b' bs' hs, .inr fun v' hv' => oneWord_counts ?_⟩
      rw [hv] at hv'
      cases hv'
      exact h1)
  rw [hck] at e1
  cases e1
  rw [hs] at e2
  cases e2
  have hps : as' = a :: as := pictures_unique hp' hp
  subst hps
  refine ⟨ans, hr, by rw [hc, hal], ?_, hle⟩
  have hl0 : lead.length = 0 := by
    rw [hlead]
    obtain ⟨v', l, c1, c2, c3, c4⟩ := hcand 0 a rfl
    rw [hv] at c1
    cases c1
    have hne := c4 h1 (by simp)
    cases amb with
    | nil => simp at c2
    | cons l' amb =>
      simp only [List.getElem?_cons_zero, Option.some.injEq] at c2
      subst c2
      cases l' with
      | nil => exact absurd rfl hne
      | cons u us =>
        have hw : u.word = v.word := h1 u (c3.subset (by simp)) v (by simp)
        cases e with
        | zero => rfl
        | succ e =>
          rw [List.map_cons, List.take_succ_cons, List.takeWhile_cons_of_neg]
          · rfl
          · have : isSep (wordsAt W (u :: us)) = isSep [W v.word] := by
              simp only [wordsAt, List.map_cons, isSep, hw]
            rw [this, hm]
            decide
  rw [hu, hl0, List.drop_zero]
  have hlen : amb.length = (a :: as).length := by rw [hl, hal]
  generalize a :: as = L at *
  unfold notFound
  clear hlead hu hl0 hv hp hp' hr hle hc hl hal he
  induction L generalizing amb with
  | nil => simp
  | cons x L ih =>
    cases amb with
    | nil => simp at hlen
    | cons m amb =>
      have hrec := ih amb (fun k b hb => hcand (k + 1) b hb) (by simpa using hlen)
      by_cases hx : candidates (setupOf S g.views d bw : Setup P) x = .ok []
      · obtain ⟨v', l, c1, c2, c3, _⟩ := hcand 0 x rfl
        rw [hx] at c1
        cases c1
        cases c2
        have := List.sublist_nil.1 c3
        subst this
        rw [List.filter_cons_of_pos (by simpa using hx), List.filter_cons_of_pos (by simp)]
        simp only [List.length_cons]
        omega
      · rw [List.filter_cons_of_neg (by simpa using hx)]
        refine Nat.le_trans hrec ?_
        rw [List.filter_cons]
        split <;> simp

end

end Ppocr.Props

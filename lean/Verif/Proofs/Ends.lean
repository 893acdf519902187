import Verif.Model.Tools
import Verif.Spec.Ends
import Verif.Proofs.DictIO
import Verif.Proofs.GlyphIO
import Verif.Proofs.AnyGlyphs
import Verif.Proofs.AnyInfos
import Verif.Proofs.Setup
import Verif.Proofs.NoThrow
import Verif.Props.AnyDatas8
import Verif.Proofs.EndsFeatures

/-! # Functions of the programs that always come to an end (C121) -/

namespace Ppocr
open Spec Props

section
variable {P : Type} [Dbl P]

/-! ### Dictionary -/

instance (src : List Nat) (u : Nat) (p : Nat) : Ends (utf8Tail src u p) := by
  unfold utf8Tail
  finishes

instance (src : List Nat) (pos : Nat) : Ends (utf8Next src pos) := by
  unfold utf8Next
  finishes

instance (E : List FNode) (lo : Nat) (n : Nat) : Ends (mkRange E lo n) := by
  unfold mkRange
  finishes

instance (E : List FNode) : Ends (rootRange E) := by
  unfold rootRange
  finishes

instance (E : List FNode) (i : Nat) : Ends (kidsRange E i) := by
  unfold kidsRange
  finishes

theorem partitionPoint_ends (p : Nat → Res Bool) [∀ k, Ends (p k)] : ∀ (fuel first len : Nat), len < fuel →
    Ends (partitionPoint p fuel first len)
  | 0, _, _, h => by omega
  | fuel + 1, first, len, h => by
    unfold partitionPoint
    split
    · finishes
    · have h1 := fun k => partitionPoint_ends p fuel k (len - len / 2 - 1) (by omega)
      have h2 := fun k => partitionPoint_ends p fuel k (len / 2) (by omega)
      finishes

instance (E : List FNode) (r : FRange) (c : Nat) : Ends (lowerBound E r c) := by
  unfold lowerBound
  exact partitionPoint_ends _ _ _ _ (Nat.lt_succ_self _)

instance (E : List FNode) (r : FRange) (c : Nat) : Ends (findNode E r c) := by
  unfold findNode
  finishes

instance (f : List Nat → List Nat → Res (Bool × List Nat)) (x0 : List (List Nat)) (x1 : List Nat) [∀ y0 y1, Ends (f y0 y1)] : Ends (tryCands f x0 x1) := by
  fun_induction tryCands <;> finishes

theorem utf8Tail_pos {src : List Nat} {u p : Nat} {q : Nat × Nat} (h : utf8Tail src u p = .ok q) : p ≤ q.2 := by
  unfold utf8Tail at h
  repeat' split at h
  all_goals
    try simp only [Res.bind_eq_ok, Res.pure_eq] at h
    grind

theorem utf8Next_pos {src : List Nat} {p : Nat} {q : Nat × Nat} (h : utf8Next src p = .ok q) : p < src.length ∧ p < q.2 := by
  unfold utf8Next at h
  obtain ⟨u, h1, h2⟩ := Res.bind_eq_ok.1 h
  have := utf8Tail_pos h2
  unfold rd at h1
  have : p < src.length := by
    cases e : src[p]? with
    | none => rw [e] at h1; cases h1
    | some v => exact (List.getElem?_eq_some_iff.1 e).1
  omega

theorem utfChar_ends (E : List FNode) (isLast : Bool) (next : FRange → List Nat → Res (Bool × List Nat)) (src : List Nat)
    [∀ y0 y1, Ends (next y0 y1)] : ∀ (fuel : Nat) (rng : FRange) (c pos : Nat) (out : List Nat), src.length < fuel + pos →
    Ends (utfChar E isLast next src (fuel + 1) rng c pos out)
  | 0, rng, c, pos, out, h => by
    unfold utfChar
    refine Ends.bind' inferInstance fun p => ?_
    split
    · finishes
    · refine Ends.bind' inferInstance fun f => ?_
      split
      · finishes
      · split
        · finishes
        · refine Ends.bind_ok inferInstance fun q hq => ?_
          have := utf8Next_pos hq
          omega
  | fuel + 1, rng, c, pos, out, h => by
    unfold utfChar
    refine Ends.bind' inferInstance fun p => ?_
    split
    · finishes
    · refine Ends.bind' inferInstance fun f => ?_
      split
      · finishes
      · split
        · finishes
        · refine Ends.bind_ok inferInstance fun q hq => ?_
          have := utf8Next_pos hq
          have := fun r o => utfChar_ends E isLast next src fuel r q.1 q.2 o (by omega)
          finishes

instance disImplEnds (E : List FNode) : ∀ (x0 : List (List (List Nat))) (x1 : FRange) (x2 : List Nat),
    Ends (disImpl E x0 x1 x2)
  | [], _, _ => by
    unfold disImpl
    finishes
  | _ :: rest, rng, _ => by
    unfold disImpl
    have := disImplEnds E rest
    have : ∀ s out, Ends (do
        let q ← utf8Next s 0
        utfChar E rest.isEmpty (disImpl E rest) s (s.length + 1) rng q.1 q.2 out) := by
      intro s out
      refine Ends.bind_ok inferInstance fun q hq => ?_
      have := utf8Next_pos hq
      exact utfChar_ends E _ _ s _ _ _ _ _ (by omega)
    finishes

instance (E : List FNode) (table : List (List (List Nat))) (out : List Nat) : Ends (disambiguous E table out) := by
  unfold disambiguous
  finishes

theorem dictLoop_ends {x0 : Nat} {x1 : IS} (x2 : List FNode) (h : x1.rest.length < x0) : Ends (dictLoop x0 x1 x2) := by
  obtain ⟨r, e⟩ := dictLoop_total x0 x1 x2 h
  rw [e x0 (Nat.le_refl _)]
  finishes

instance (s : IS) (old : List FNode) : Ends (dictRead s old) := by
  unfold dictRead
  have := dictLoop_ends (x0 := s.rest.length + 1) (x1 := { s with ws := false }) [] (Nat.lt_succ_self _)
  finishes

/-! ### Comparing images -/

instance (a : List Pixel) (b : List Pixel) (x0 : Nat) (x1 : Nat) : Ends (mismatchN a b x0 x1) := by
  fun_induction mismatchN <;> finishes

instance (a : Image) (b : Image) : Ends (imageCompare a b) := by
  unfold imageCompare
  finishes

instance (a : Image) (b : Image) : Ends (imageLess a b) := by
  unfold imageLess
  finishes

instance (k : Image) (x0 : List (Image × Nat)) : Ends (cacheFind k x0) := by
  fun_induction cacheFind <;> finishes

instance (k : Image) (r : Nat) (x0 : List (Image × Nat)) : Ends (cacheEmplace k r x0) := by
  fun_induction cacheEmplace <;> finishes

/-! ### The context of images -/

instance (h : Heap) (x0 : UPtr) : Ends (Heap.free h x0) := by
  unfold Heap.free
  finishes

instance (h : Heap) (x0 : UPtr) : Ends (Heap.cells h x0) := by
  unfold Heap.cells
  finishes

instance (h : Heap) (p : UPtr) (n : Nat) : Ends (Heap.plus h p n) := by
  unfold Heap.plus
  finishes

instance (h : Heap) (p : UPtr) (n : Nat) : Ends (Heap.load h p n) := by
  unfold Heap.load
  finishes

instance (h : Heap) (i : ImageRef) : Ends (ImageRef.view h i) := by
  unfold ImageRef.view
  finishes

instance (h : Heap) (i : ImageRef) (b : Bounds) (p : UPtr) : Ends (ImageRef.assign h i b p) := by
  unfold ImageRef.assign
  finishes

instance (h : Heap) (c : Ctx) (n : Nat) : Ends (Ctx.grow h c n) := by
  unfold Ctx.grow
  finishes

instance (h : Heap) (c : Ctx) (b : Bounds) : Ends (Ctx.reserve h c b) := by
  unfold Ctx.reserve
  finishes

instance (h : Heap) (c : Ctx) (b : Bounds) (maker : Out Pixel → Res (Out Pixel)) [∀ y0, Ends (maker y0)] : Ends (Ctx.doImg h c b maker) := by
  unfold Ctx.doImg
  finishes

instance (h : Heap) (c : Ctx) : Ends (Ctx.destroy h c) := by
  unfold Ctx.destroy
  finishes

/-! ### Relationships -/

instance (a : Nat) (b : Nat) (interval : Nat) : Ends (computeRel a b interval) := by
  unfold computeRel
  finishes

instance (V : Type) [DecidableEq V] (x0 : List V) (x1 : List V) (x2 : Nat) : Ends (@sameCount V _ x0 x1 x2) := by
  fun_induction sameCount <;> finishes

instance (V : Type) [DecidableEq V] (a : List V) (b : List V) : Ends (@arrayCompute V _ a b) := by
  unfold arrayCompute
  finishes

instance (x0 : List Nat) (x1 : List Nat) (x2 : Nat) : Ends (pzSum x0 x1 x2) := by
  fun_induction pzSum <;> finishes

instance (a : List Nat) (b : List Nat) : Ends (pzCompute a b) := by
  unfold pzCompute
  finishes

/-! ### Reductions -/

instance (data : List Nat) (idx : List Nat) (start : Nat) (stop : Nat) : Ends (rangeBounds data idx start stop) := by
  unfold rangeBounds
  refine Ends.bind' (partitionPoint_ends _ _ _ _ (Nat.lt_succ_self _)) fun k => ?_
  refine Ends.bind' (partitionPoint_ends _ _ _ _ (by omega)) fun k => ?_
  finishes

instance (data : List Nat) (idx : List Nat) (x : Nat) (d : Nat) : Ends (getRange data idx x d) := by
  unfold getRange
  finishes

instance (pred : Nat → Res Bool) (x0 : List Nat) [∀ y0, Ends (pred y0)] : Ends (anyRes pred x0) := by
  fun_induction anyRes <;> finishes

instance (byWords : List (List Nat)) (pred : Nat → Res Bool) (i : Nat) [∀ y0, Ends (pred y0)] : Ends (keepByWord byWords pred i) := by
  unfold keepByWord
  finishes

instance (β : Type) (byWords : List (List Nat)) (pred : Nat → Res Bool) (x0 : List (Nat × β)) [∀ y0, Ends (pred y0)] : Ends (@reduceByWord β byWords pred x0) := by
  fun_induction reduceByWord <;> finishes

instance (β : Type) (ids : List Nat) (a : Nat × β) (b : Nat × β) : Ends (@eqViews β ids a b) := by
  unfold eqViews
  finishes

instance (S : StdSort) (ids : List Nat) (ps : List (Nat × P)) : Ends (@sortByViews P _ S ids ps) := by
  unfold sortByViews
  finishes

instance (ids : List Nat) (ps : List (Nat × P)) : Ends (@uniqueByViews P ids ps) := by
  unfold uniqueByViews
  finishes

instance (cap : Nat) (ids : List Nat) (ps : List (Nat × P)) : Ends (@uniqueCopyByViews P cap ids ps) := by
  unfold uniqueCopyByViews
  finishes

instance (glyphs : List (List View)) (limit : P) (x0 : List (Nat × P)) : Ends (@insertViews P _ glyphs limit x0) := by
  fun_induction insertViews <;> finishes

instance (cap : Nat) (x0 : List Nat) (x1 : List (Nat × Unit)) : Ends (emplaceAll cap x0 x1) := by
  fun_induction emplaceAll <;> finishes

/-! ### Recognition -/

instance {β V : Type} (rel : Rel V) (tab : List V) (value : V) (d : Nat) (ps : List (Nat × β)) [∀ a b d, Ends (rel.inDist a b d)] :
    Ends (reduceWithDistance rel tab value d ps) := by
  unfold reduceWithDistance
  finishes

instance {V : Type} (rel : Rel V) (tab : List V) (value : V) (limit : P) (ps : List (Nat × P)) [∀ a b, Ends (rel.compute a b)] :
    Ends (reduceAndUpdate rel tab value limit ps) := by
  fun_induction reduceAndUpdate <;> finishes

/-- Loading from these pictures ends. -/
def Simple.Stops (s : Simple) (a r : Image) : Prop := Ends (s.load a r)

/-- Loading from these pictures ends, and so does comparing. -/
structure Strat.Stops (s : Strat) (a r : Image) : Prop where
  load : Ends (s.load a r)
  compute : ∀ a b, Ends (s.rel.compute a b)
  inDist : ∀ a b d, Ends (s.rel.inDist a b d)

instance (k a b : Nat) : Ends ((intervalRel k).compute a b) := by
  unfold intervalRel
  finishes

instance (k a b d : Nat) : Ends ((intervalRel k).inDist a b d) := by
  unfold intervalRel
  finishes

instance (cap : Nat) (s : Simple) (idx : List Nat) (value : Nat) : Ends (initializeUniverse cap s idx value) := by
  unfold initializeUniverse
  finishes

theorem loadSimple_ends (img img90 : Image) : ∀ l : List Simple, (∀ s ∈ l, s.Stops img img90) → Ends (loadSimple img img90 l)
  | [], _ => by
    unfold loadSimple
    finishes
  | s :: ss, h => by
    unfold loadSimple
    have : Ends (s.load img img90) := h s (by simp)
    have := loadSimple_ends img img90 ss fun t ht => h t (by simp [ht])
    finishes

instance (l : List (Simple × Nat)) (ps : List (Nat × Unit)) : Ends (reduceSimple l ps) := by
  fun_induction reduceSimple <;> finishes

instance (s : Simple) (value : Nat) (ps : List (Nat × Unit)) : Ends (initProb (P := P) s value ps) := by
  fun_induction initProb (P := P) s value ps <;> finishes

instance (s : Simple) (value : Nat) (ps : List (Nat × P)) : Ends (updateProb s value ps) := by
  fun_induction updateProb <;> finishes

instance (l : List (Simple × Nat)) (ps : List (Nat × P)) : Ends (updateAll l ps) := by
  fun_induction updateAll <;> finishes

theorem computeSimpleUniverse_ends (cap : Nat) (s : Simple) (ss : List Simple) (idx : List Nat) (img img90 : Image)
    (h : s.Stops img img90) (hs : ∀ s ∈ ss, s.Stops img img90) : Ends (computeSimpleUniverse (P := P) cap s ss idx img img90) := by
  unfold computeSimpleUniverse
  have : Ends (s.load img img90) := h
  have := loadSimple_ends img img90 ss hs
  finishes

theorem reduceComplex_ends (img img90 : Image) : ∀ (l : List Strat) (ps : List (Nat × P)), (∀ s ∈ l, s.Stops img img90) →
    Ends (reduceComplex img img90 l ps)
  | [], _, _ => by
    unfold reduceComplex
    finishes
  | s :: ss, _, h => by
    unfold reduceComplex
    have := (h s (by simp)).load
    have := (h s (by simp)).compute
    have := fun ps => reduceComplex_ends img img90 ss ps fun t ht => h t (by simp [ht])
    finishes

theorem loadExclusive_ends (img img90 : Image) : ∀ (l : List Strat), (∀ s ∈ l, s.Stops img img90) →
    Ends (loadExclusive img img90 l) ∧ ∀ ts, loadExclusive img img90 l = .ok ts → ∀ t ∈ ts, ∀ i, Ends (t i)
  | [], _ => by
    unfold loadExclusive
    refine ⟨inferInstance, ?_⟩
    rintro ts h
    cases h
    simp
  | s :: ss, h => by
    unfold loadExclusive
    have h1 := (h s (by simp)).load
    have h2 := (h s (by simp)).inDist
    obtain ⟨h3, h4⟩ := loadExclusive_ends img img90 ss fun t ht => h t (by simp [ht])
    refine ⟨by finishes, ?_⟩
    intro ts e t ht i
    obtain ⟨v, _, e⟩ := Res.bind_eq_ok.1 e
    obtain ⟨r, hr, e⟩ := Res.bind_eq_ok.1 e
    cases e
    rcases List.mem_cons.1 ht with rfl | ht
    · finishes
    · exact h4 r hr t ht i

theorem allTests_ends : ∀ (ts : List (Nat → Res Bool)) (i : Nat), (∀ t ∈ ts, ∀ i, Ends (t i)) → Ends (allTests ts i)
  | [], _, _ => by
    unfold allTests
    finishes
  | t :: ts, i, h => by
    unfold allTests
    have := h t (by simp)
    have := allTests_ends ts i fun u hu => h u (by simp [hu])
    finishes

omit [Dbl P] in
theorem reduceExclusive_ends (byWords : List (List Nat)) (img img90 : Image) (ss : List Strat) (ps : List (Nat × P))
    (h : ∀ s ∈ ss, s.Stops img img90) : Ends (reduceExclusive byWords img img90 ss ps) := by
  unfold reduceExclusive
  obtain ⟨h1, h2⟩ := loadExclusive_ends img img90 ss h
  split
  · infer_instance
  · refine Ends.bind_ok h1 fun ts hts => ?_
    have := fun i => allTests_ends ts i (h2 ts hts)
    infer_instance

/-- Every strategy of the setup ends on these pictures. -/
structure Setup.Stops (s : Setup P) (a r : Image) : Prop where
  first : s.first.Stops a r
  simple : ∀ t ∈ s.simple, t.Stops a r
  complex : ∀ t ∈ s.complex, t.Stops a r
  exclusive : ∀ t ∈ s.exclusive, t.Stops a r

instance (s : Setup P) (ps tmp : List (Nat × P)) : Ends (finish s ps tmp) := by
  unfold finish
  finishes

theorem computeImage_ends (s : Setup P) (tmp : List (Nat × P)) (img img90 : Image) (h : s.Stops img img90) : Ends (computeImage s tmp img img90) := by
  unfold computeImage
  have := computeSimpleUniverse_ends (P := P) s.cap s.first s.simple s.idx img img90 h.first h.simple
  have := fun ps : List (Nat × P) => reduceComplex_ends img img90 s.complex ps h.complex
  have := fun ps : List (Nat × P) => reduceExclusive_ends s.byWords img img90 s.exclusive ps h.exclusive
  finishes

instance (x0 : List (List View)) (x1 : Nat) (x2 : List (Nat × List Nat)) : Ends (collectWords x0 x1 x2) := by
  fun_induction collectWords <;> finishes

instance (glyphs : List (List View)) : Ends (dataIndexesByWords glyphs) := by
  unfold dataIndexesByWords
  finishes

/-! ### Filters -/

instance (st : List (List View)) (x0 : List Nat) (x1 : List (Nat × Nat)) : Ends (countFonts st x0 x1) := by
  fun_induction countFonts <;> finishes

instance (font : Nat) (x0 : List Nat) (x1 : List (List View)) : Ends (keepFonts font x0 x1) := by
  fun_induction keepFonts <;> finishes

instance (refs : List Nat) (st : List (List View)) : Ends (filterByFont refs st) := by
  unfold filterByFont
  finishes

instance (infos : List WordInfo) (w : Nat) : Ends (infosGet infos w) := by
  unfold infosGet
  refine Ends.bind' (partitionPoint_ends _ _ _ _ (Nat.lt_succ_self _)) fun k => ?_
  finishes

instance (pred : View → Res Bool) (x0 : List View) [∀ y0, Ends (pred y0)] : Ends (predFirst pred x0) := by
  unfold predFirst
  finishes

instance (pred : View → Res Bool) (g : List View) [∀ y0, Ends (pred y0)] : Ends (predLast pred g) := by
  unfold predLast
  finishes

instance (pred : View → Res Bool) (x0 : List (List View)) (x1 : Nat) [∀ y0, Ends (pred y0)] : Ends (keepRuns pred x0 x1) := by
  fun_induction keepRuns <;> finishes

instance (pred : View → Res Bool) (x0 : List (List View)) (x1 : Nat) [∀ y0, Ends (pred y0)] : Ends (filterRuns pred x0 x1) := by
  fun_induction filterRuns <;> finishes

instance (pred : View → Res Bool) (r : Bool) (g : List View) (gs : List (List View)) [∀ y0, Ends (pred y0)] : Ends (keepFirstRuns pred r g gs) := by
  unfold keepFirstRuns
  finishes

instance (pred : View → Res Bool) (vec : List View) [∀ y0, Ends (pred y0)] : Ends (filterLine pred vec) := by
  unfold filterLine
  finishes

instance (ys : List Nat) (k : Nat) : Ends (bumpAt ys k) := by
  unfold bumpAt
  finishes

instance (lo : Nat) (x0 : List Box) (x1 : List Nat) : Ends (bumpBottoms lo x0 x1) := by
  fun_induction bumpBottoms <;> finishes

instance (infos : List WordInfo) (field : WordLines → Nat) (ypos : Nat) (pos : Nat) (v : View) : Ends (wordPred infos field ypos pos v) := by
  unfold wordPred
  finishes

instance (infos : List WordInfo) (minTop : Nat) (b : Box) (vec : List View) (n : Nat) (map : List Nat) (has : Bool) : Ends (countMean infos minTop b vec n map has) := by
  unfold countMean
  finishes

instance (infos : List WordInfo) (baseline : Nat) (minTop : Nat) (x0 : List (Nat × Box)) (x1 : List (List View)) (x2 : List Nat) (x3 : Bool) : Ends (basePass infos baseline minTop x0 x1 x2 x3) := by
  fun_induction basePass <;> finishes

instance (infos : List WordInfo) (meanline : Nat) (x0 : List (Nat × Box)) (x1 : List (List View)) : Ends (meanPass infos meanline x0 x1) := by
  fun_induction meanPass <;> finishes

instance (infos : List WordInfo) (m : MinMax) (l : List (Nat × Box)) (st : List (List View)) (map : List Nat) (has : Bool) : Ends (meanIf infos m l st map has) := by
  unfold meanIf
  finishes

instance (infos : List WordInfo) (boxes : List Box) (refs : List Nat) (st : List (List View)) : Ends (filterByLines infos boxes refs st) := by
  unfold filterByLines
  finishes

/-! ### Glyphs -/

instance (α : Type) (l : List α) (i : Nat) (x : α) : Ends (@wr α l i x) := by
  unfold wr
  finishes

instance (x0 : StrMap) (x1 : List Nat) (x2 : Nat) : Ends (reindexLoop x0 x1 x2) := by
  fun_induction reindexLoop <;> finishes

instance (v : List Nat) (x0 : List View) : Ends (reindexViews v x0) := by
  fun_induction reindexViews <;> finishes

instance (v : List Nat) (x0 : List (List View)) : Ends (reindexAll v x0) := by
  fun_induction reindexAll <;> finishes

instance (b : List (Option Nat)) (x0 : Nat) (x1 : List Nat) : Ends (wrAll b x0 x1) := by
  fun_induction wrAll <;> finishes

instance (x0 : StrMap) (x1 : List (Option Nat)) (x2 : Nat) : Ends (fillWords x0 x1 x2) := by
  fun_induction fillWords <;> finishes

instance (gs : List (List View)) (wm : StrMap) : Ends (finishGlyphs gs wm) := by
  unfold finishGlyphs
  finishes

instance (b : List (Option Nat)) (i : Nat) : Ends (rdByte b i) := by
  unfold rdByte
  finishes

instance (b : List (Option Nat)) (x0 : Nat) (x1 : Nat) : Ends (rdBytes b x0 x1) := by
  fun_induction rdBytes <;> finishes

instance (b : List (Option Nat)) (i : Nat) : Ends (wordSize b i) := by
  unfold wordSize
  finishes

instance (b : List (Option Nat)) (i : Nat) : Ends (getWord b i) := by
  unfold getWord
  finishes

instance (x0 : List Nat) (x1 : List (Option Nat)) : Ends (memCmp x0 x1) := by
  fun_induction memCmp <;> finishes

instance (b : List (Option Nat)) (s : List Nat) (i : Nat) : Ends (wordCompare b s i) := by
  unfold wordCompare
  finishes

/-! ### Text -/

instance (g : RGlyphs) (x0 : List View) : Ends (searchFn g x0) := by
  unfold searchFn
  finishes

instance (g : RGlyphs) (want : Bool) (x0 : List (List View)) : Ends (findFirst g want x0) := by
  fun_induction findFirst <;> finishes

instance (g : RGlyphs) (x0 : List (List View)) (x1 : List Nat) : Ends (appendFirsts g x0 x1) := by
  fun_induction appendFirsts <;> finishes

instance (g : RGlyphs) (x0 : List (List View)) (x1 : List Nat) (x2 : Nat) : Ends (sepLoop g x0 x1 x2) := by
  fun_induction sepLoop <;> finishes

instance (g : RGlyphs) (E : List FNode) (run : List (List View)) (out : List Nat) : Ends (runStep g E run out) := by
  unfold runStep
  finishes

theorem findFirst_le {g : RGlyphs} {want : Bool} : ∀ {ls : List (List View)} {n : Nat}, findFirst g want ls = .ok n →
    n ≤ ls.length ∧ ∀ l, ls[n]? = some l → searchFn g l = .ok want
  | [], n, h => by
    cases h
    simp
  | l :: ls, n, h => by
    unfold findFirst at h
    obtain ⟨b, h1, h⟩ := Res.bind_eq_ok.1 h
    split at h
    · rename_i hb
      cases h
      subst hb
      exact ⟨by simp, fun l h => by simp at h; rw [← h]; exact h1⟩
    · obtain ⟨m, h2, h⟩ := Res.bind_eq_ok.1 h
      cases h
      have := findFirst_le h2
      exact ⟨by simpa using this.1, fun l h => this.2 l (by simpa using h)⟩

theorem sepLoop_le {g : RGlyphs} : ∀ {ls : List (List View)} {out : List Nat} {cnt : Nat} {r : List Nat × Nat × Nat},
    sepLoop g ls out cnt = .ok r → r.2.2 ≤ ls.length ∧ ∀ l ∈ ls.head?, searchFn g l = .ok true → 1 ≤ r.2.2
  | [], out, cnt, r, h => by
    cases h
    simp
  | [] :: ls, out, cnt, r, h => by
    unfold sepLoop at h
    obtain ⟨q, h1, h⟩ := Res.bind_eq_ok.1 h
    cases h
    have := (sepLoop_le h1).1
    simp
    omega
  | (v :: l) :: ls, out, cnt, r, h => by
    unfold sepLoop at h
    obtain ⟨b, h1, h⟩ := Res.bind_eq_ok.1 h
    split at h
    · obtain ⟨w, h2, h⟩ := Res.bind_eq_ok.1 h
      obtain ⟨q, h3, h⟩ := Res.bind_eq_ok.1 h
      cases h
      have := (sepLoop_le h3).1
      simp
      omega
    · rename_i hb
      cases h
      refine ⟨by simp, ?_⟩
      intro l' hl' hs
      simp only [List.head?_cons, Option.mem_def, Option.some.injEq] at hl'
      subst hl'
      rw [h1] at hs
      cases hs
      exact absurd rfl hb

theorem textLoop_ends (g : RGlyphs) (E : List FNode) (amb : List (List View)) :
    ∀ (fuel first : Nat) (spaces out : List Nat) (cnt : Nat), amb.length < fuel + first → first ≤ amb.length →
    Ends (textLoop g E amb fuel first spaces out cnt)
  | 0, first, spaces, out, cnt, h, h' => by omega
  | fuel + 1, first, spaces, out, cnt, h, h' => by
    unfold textLoop
    split
    · finishes
    · split
      · finishes
      · rename_i e rest
        split
        · finishes
        · refine Ends.bind_ok inferInstance fun u hu => ?_
          have hlt : first < e := by
            unfold assert at hu
            by_cases hlt : first < e
            · exact hlt
            · simp [hlt] at hu
          refine Ends.bind_ok inferInstance fun n hn => ?_
          refine Ends.bind' inferInstance fun out' => ?_
          refine Ends.bind_ok inferInstance fun q hq => ?_
          have h1 := findFirst_le hn
          have h2 := sepLoop_le hq
          simp only [List.length_drop, List.length_take] at h1 h2
          have hmin : min e amb.length = e := by omega
          rw [hmin] at h1 h2
          have hstep : 1 ≤ n + q.2.2 := by
            by_cases hn0 : 1 ≤ n
            · omega
            · have hn0 : n = 0 := by omega
              subst hn0
              cases hc : ((amb.take e).drop first)[0]? with
              | none =>
                rw [List.getElem?_eq_none_iff] at hc
                simp only [List.length_drop, List.length_take] at hc
                omega
              | some l =>
                have hs := h1.2 l hc
                have := h2.2 l (by rw [Nat.add_zero, List.head?_eq_getElem?]; exact hc) hs
                omega
          have := fun sp o c => textLoop_ends g E amb fuel (first + n + q.2.2) sp o c (by omega) (by omega)
          finishes

instance (g : RGlyphs) (E : List FNode) (amb : List (List View)) (spaces : List Nat) : Ends (disambiguousWithDict g E amb spaces) := by
  unfold disambiguousWithDict
  split
  · finishes
  · split
    · finishes
    · refine Ends.bind_ok inferInstance fun n hn => ?_
      have := (findFirst_le hn).1
      simp only [List.length_take] at this
      have := fun sp o c => textLoop_ends g E amb (amb.length + 1) n sp o c (by omega) (by omega)
      finishes

/-! ### The program -/

instance (g : RGlyphs) (x0 : List View) : Ends (printWords g x0) := by
  fun_induction printWords <;> finishes

instance (st : List (List View)) (x0 : List Nat) : Ends (derefs st x0) := by
  fun_induction derefs <;> finishes

/-! ### Positions -/

theorem wwordsLoop_ends : ∀ (fuel : Nat) (s : IS) (acc : List WWordLines), s.rest.length < fuel → Ends (wwordsLoop fuel s acc)
  | 0, _, _, h => by omega
  | fuel + 1, s, acc, h => by
    unfold wwordsLoop
    dsimp only
    split
    · finishes
    · rename_i hf
      refine wwordsLoop_ends fuel _ _ ?_
      have hf' : (wlinesRead (s.str []).2 ⟨0, 0, 0, 0⟩).2.fail = false := by simpa using hf
      unfold wlinesRead at hf' ⊢
      have h1 := (uint_lt hf').1
      have h2 := (str_mono s []).1
      refine Nat.lt_of_lt_of_le h1 (Nat.le_trans (uint_le _ _ _) (Nat.le_trans (uint_le _ _ _) (Nat.le_trans (uint_le _ _ _) (by omega))))

instance (s : IS) (old : List WWordLines) : Ends (wwordsRead s old) := wwordsLoop_ends _ _ _ (Nat.lt_succ_self _)

instance (r : RawImage) : Ends (RawImage.image r) := by
  unfold RawImage.image
  finishes

/-! ### The strategies of the program -/

theorem loadStrat_ends (s : Feat × Policy) {a r : Image} (ha : AllCells a) (hr : AllCells r) : Ends (loadStrat s a r) := by
  unfold loadStrat
  refine Ends.bind' (ha.stratLoad hr _ _) fun p => ?_
  finishes

theorem simple_stops (d : Datas) (s : Feat × Policy) {a r : Image} (ha : AllCells a) (hr : AllCells r) : (d.simple s).Stops a r := by
  have := loadStrat_ends s ha hr
  unfold Datas.simple Simple.Stops
  finishes

theorem strat_stops (d : Datas) (s : Feat × Policy) {a r : Image} (ha : AllCells a) (hr : AllCells r) : (d.strat s).Stops a r := by
  have := loadStrat_ends s ha hr
  unfold Datas.strat
  split
  all_goals
    refine ⟨?_, ?_, ?_⟩
    all_goals
      intros
      simp only [arrayRel, pzRel, equalRel]
      finishes

theorem setupOf_stops (S : StdSort) (glyphs : List (List View)) (d : Datas) (bw : List (List Nat)) {a r : Image}
    (ha : AllCells a) (hr : AllCells r) : (setupOf S glyphs d bw : Setup P).Stops a r := by
  constructor
  · exact simple_stops d firstStrat ha hr
  · intro t ht
    obtain ⟨s, _, rfl⟩ := List.mem_map.1 ht
    exact simple_stops d s ha hr
  all_goals
    intro t ht
    obtain ⟨s, _, rfl⟩ := List.mem_map.1 ht
    exact strat_stops d s ha hr

/-! ### The image file -/

instance (x0 : List ReadEv) (x1 : List UInt8) (x2 : Nat) (x3 : List UInt8) : Ends (readLoop x0 x1 x2 x3) := by
  fun_induction readLoop <;> finishes

instance (e : FileEnv) : Ends (readAll e) := by
  unfold readAll
  finishes

instance (lum : Nat) (x0 : List UInt8) (x1 : Out Pixel) : Ends (decodeP6 lum x0 x1) := by
  fun_induction decodeP6 <;> finishes

instance (i c : Nat) (p : List UInt8) : Ends (fetchP4 i c p) := by
  unfold fetchP4
  finishes

instance (x0 x1 x2 : Nat) (x3 : List UInt8) (x4 : Out Pixel) : Ends (decodeP4Row x0 x1 x2 x3 x4) := by
  fun_induction decodeP4Row <;> finishes

instance (w x0 : Nat) (x1 : List UInt8) (x2 : Out Pixel) : Ends (decodeP4 w x0 x1 x2) := by
  fun_induction decodeP4 <;> finishes

instance (n : Nat) (x0 : List UInt8) (x1 : Nat) (x2 : Out Pixel) : Ends (decodeAscii n x0 x1 x2) := by
  fun_induction decodeAscii <;> finishes

instance (buf : List UInt8) (lum : Nat) : Ends (imageFromBytes buf lum) := by
  unfold imageFromBytes
  finishes

instance (l : List (Option UInt8)) : Ends (initialised l) := by
  unfold initialised
  finishes

instance (e : FileEnv) (lum : Nat) : Ends (imageFromFile e lum) := by
  unfold imageFromFile
  finishes

instance (e : FileEnv) (lum : Nat) : Ends (loadImage e lum) := by
  unfold loadImage
  finishes

/-! ### The other files -/

instance (f : TextFile) : Ends (openText f) := by
  unfold openText
  finishes

instance (s : IS) : Ends (checkEof s) := by
  unfold checkEof
  finishes

instance (f : Option TextFile) : Ends (loadDict f) := by
  unfold loadDict
  finishes

instance (f : TextFile) : Ends (loadDatas f) := by
  unfold loadDatas
  finishes

theorem rglyphsRead_ends {t : List Nat} (ht : t.length < W32) : Ends (rglyphsRead (IS.of t) []) := by
  obtain ⟨gs, s, wm, _, e, _⟩ := rglyphsRead_any ht
  rw [e]
  finishes

theorem loadGlyphs_ends {f : TextFile} (h : Under4G f) : Ends (loadGlyphs f) := by
  unfold loadGlyphs openText
  cases f with
  | none => exact inferInstanceAs (Ends .throw)
  | some t =>
    have := rglyphsRead_ends (h t rfl)
    dsimp only
    rw [Res.ok_bind]
    finishes

theorem wordIndexLoop_ends (s : List Nat) : ∀ (ws : List (List Nat)) (done rest : List (Option Nat)) (views : List (List View))
    (i fuel : Nat), done.length = 4 * i → Blocks ws rest → i + (ws.map room).sum < W32 → ws.length < fuel →
    (∀ w ∈ ws, w.length < W32) →
    Ends (wordIndexLoop ⟨views, done ++ rest, i + (ws.map room).sum⟩ s fuel i)
  | _, _, _, _, _, 0, _, _, _, h, _ => by omega
  | [], done, rest, views, i, fuel + 1, _, _, _, _, _ => by
    rw [wordIndexLoop]
    simp only [List.map_nil, List.sum_nil, Nat.add_zero, Nat.lt_irrefl, if_false]
    finishes
  | w :: ws, done, _, views, i, fuel + 1, hd, .cons _ _ pad rest hp hn hb, hsz, hf, h32 => by
    have hroom : 0 < room w := by unfold room; omega
    have l4 : ((le4 w.length).map some).length = 4 := rfl
    have hr := room_bytes w
    simp only [List.map_cons, List.sum_cons] at hsz
    rw [wordIndexLoop]
    simp only [List.map_cons, List.sum_cons]
    rw [if_pos (by omega)]
    refine Ends.bind' inferInstance fun c => ?_
    split
    · finishes
    · have hholds : Holds (done ++ ((le4 w.length).map some ++ (w.map some ++ (pad ++ rest)))) i w := by
        constructor
        · intro k hk
          rw [← hd, List.getElem?_append_right (by omega), List.getElem?_append_left (by rw [l4]; omega),
            Nat.add_sub_cancel_left, List.getElem?_map, le4_get _ _ hk]
          rfl
        · intro k c hk
          have hkl : k < w.length := (List.getElem?_eq_some_iff.1 hk).1
          rw [← hd, List.getElem?_append_right (by omega), List.getElem?_append_right (by rw [l4]; omega),
            List.getElem?_append_left (by simp only [List.length_map] at l4 ⊢; omega), l4,
            show done.length + 4 + k - done.length - 4 = k by omega, List.getElem?_map, hk]
          rfl
      have hmod : (i + (w.length + 4 * 2 - 1) / 4) % W32 = i + room w := by
        have : (w.length + 4 * 2 - 1) / 4 = room w := by unfold room; omega
        rw [this]
        exact Nat.mod_eq_of_lt (by omega)
      rw [wordSize_of hholds (h32 w (by simp)), Res.ok_bind, hmod]
      have ih := wordIndexLoop_ends s ws (done ++ ((le4 w.length).map some ++ (w.map some ++ pad))) rest views
        (i + room w) fuel (by simp only [List.length_append, List.length_map, hd, hp] at l4 ⊢; omega) hb
        (by omega) (by simpa using hf) (fun v hv => h32 v (by simp [hv]))
      simpa only [List.append_assoc, Nat.add_assoc] using ih

theorem wordIndexOf_ends {t : List Nat} {g : RGlyphs} {ws : List (List Nat)} (ht : t.length < W32) (h : Loaded t g ws) (s : List Nat) :
    Ends (wordIndexOf g s) := by
  have h1 := h.size
  have h2 := h.bufSz
  have hlen : ∀ us : List (List Nat), us.length ≤ (us.map room).sum ∧ ∀ w ∈ us, w.length ≤ 4 * (us.map room).sum := by
    intro us
    induction us with
    | nil => simp
    | cons u us ih =>
      have hu : u.length ≤ 4 * room u ∧ 0 < room u := by unfold room; omega
      simp only [List.length_cons, List.map_cons, List.sum_cons, List.mem_cons]
      refine ⟨by omega, ?_⟩
      rintro w (rfl | hw)
      · omega
      · have := ih.2 w hw
        omega
  have h32 : ∀ w ∈ ws, w.length < W32 := fun w hw => Nat.lt_of_le_of_lt (h.words w hw).2.1.length_le ht
  have := wordIndexLoop_ends s ws [] g.buf g.views 0 (g.bufSz + 1) rfl h.blocks (by omega) (by have := (hlen ws).1; omega) h32
  unfold wordIndexOf
  rw [Nat.zero_add, List.nil_append, ← h2] at this
  exact this

theorem wordsInfos_ends (S : StdSort) {t : List Nat} {g : RGlyphs} {us : List (List Nat)} (ht : t.length < W32) (h : Loaded t g us)
    (ls : List WWordLines) : Ends (wordsInfos S g ls) := by
  have := fun s => wordIndexOf_ends ht h s
  have : Ends (infosLoop g ls) := by fun_induction infosLoop <;> finishes
  unfold wordsInfos
  finishes

theorem loadInfos_ends (S : StdSort) {t : List Nat} {g : RGlyphs} {us : List (List Nat)} (ht : t.length < W32) (h : Loaded t g us)
    (f : Option TextFile) : Ends (loadInfos S g f) := by
  have := fun ls => wordsInfos_ends S ht h ls
  unfold loadInfos
  finishes

instance (glyphs : List (List View)) (d : Datas) : Ends (checkTables glyphs d) := by
  unfold checkTables
  finishes

/-! ### The letters of a line -/

/-- A step comes to an end and leaves the context of images in order. -/
def Keeps (r : Res (Line P)) : Prop := Ends r ∧ ∀ l, r = .ok l → ∃ j cells, l.ctx.Inv l.heap j cells

theorem newLetter_keeps {s : Setup P} {g : RGlyphs} {l : Line P} {a : Image} {cells : List (Option Pixel)}
    (hc : l.ctx.Inv l.heap a cells) (hs : s.Stops a (turned a)) : Keeps (newLetter s g l) := by
  obtain ⟨h', c', l', e1, inv', v1, v2⟩ := doImg90_views hc
  have := computeImage_ends s l.tmp a (turned a) hs
  unfold newLetter
  rw [e1, Res.ok_bind]
  dsimp only
  rw [v1, Res.ok_bind, v2, Res.ok_bind]
  refine ⟨by finishes, ?_⟩
  intro r hr
  obtain ⟨o, _, hr⟩ := Res.bind_eq_ok.1 hr
  obtain ⟨k, _, hr⟩ := Res.bind_eq_ok.1 hr
  obtain ⟨m, _, hr⟩ := Res.bind_eq_ok.1 hr
  obtain ⟨u, _, hr⟩ := Res.bind_eq_ok.1 hr
  cases hr
  exact ⟨a, l', inv'⟩

theorem lookLetter_keeps {s : Setup P} {g : RGlyphs} {l : Line P} {a : Image} {cells : List (Option Pixel)}
    (hc : l.ctx.Inv l.heap a cells) (hs : s.Stops a (turned a)) : Keeps (lookLetter s g l) := by
  have hn := newLetter_keeps (g := g) hc hs
  have := hn.1
  unfold lookLetter
  rw [(inv_img hc).2, Res.ok_bind]
  refine ⟨by finishes, ?_⟩
  intro r hr
  obtain ⟨hit, _, hr⟩ := Res.bind_eq_ok.1 hr
  cases hit with
  | none => exact hn.2 r hr
  | some q =>
    cases hr
    exact ⟨a, cells, hc⟩

/-- The picture `a` is a part of `i`. -/
def CutFrom (i a : Image) : Prop :=
  ∃ b : Box, 0 < b.w ∧ 0 < b.h ∧ b.x + b.w ≤ i.bounds.w ∧ b.y + b.h ≤ i.bounds.h ∧ i.section b.x b.y b.bounds = .ok a

theorem _root_.Ppocr.Spec.CharBox.cut {i : Image} {x : Nat} {b : Box} (h : CharBox i x b) (wf : i.WF) :
    ∃ a, i.section b.x b.y b.bounds = .ok a ∧ CutFrom i a := by
  have h1 := h.right
  have h2 := h.bottom
  obtain ⟨a, e, _⟩ := C55_section i wf b.x b.y b.bounds h.wpos h.hpos (show b.w + b.x ≤ _ by omega) (show b.h + b.y ≤ _ by omega)
  exact ⟨a, e, b, h.wpos, h.hpos, h1, h2, e⟩

theorem CutFrom.cells {i a : Image} (wf : i.WF) (h : CutFrom i a) :
    a.WF ∧ a.bounds.w * a.bounds.h ≤ i.bounds.w * i.bounds.h ∧ AllCells a ∧ AllCells (turned a) := by
  obtain ⟨b, h1, h2, h3, h4, h5⟩ := h
  obtain ⟨a', e, wa, hb, _⟩ := C55_section i wf b.x b.y b.bounds h1 h2 (show b.w + b.x ≤ _ by omega) (show b.h + b.y ≤ _ by omega)
  rw [h5] at e
  cases e
  have ha : AllCells a := ⟨wa.len, wa.small⟩
  refine ⟨wa, ?_, ha, ha.rotate (rotate90_turned wa)⟩
  rw [hb]
  exact Nat.mul_le_mul (show b.w ≤ _ by omega) (show b.h ≤ _ by omega)

theorem letterStep_keeps {s : Setup P} {g : RGlyphs} {i : Image} (wf : i.WF) {l : Line P} {a j : Image} {cells : List (Option Pixel)}
    {b : Box} {x : Nat} (hc : l.ctx.Inv l.heap j cells) (hw : 0 < b.w) (hh : 0 < b.h) (hx : b.x + b.w ≤ i.bounds.w)
    (hy : b.y + b.h ≤ i.bounds.h) (hs : i.section b.x b.y b.bounds = .ok a) (ha : 2 * (a.bounds.w * a.bounds.h) < W32)
    (hst : s.Stops a (turned a)) : Keeps (letterStep s g i x b l) := by
  obtain ⟨a', e1, wa, hb, hm⟩ := C55_section i wf b.x b.y b.bounds hw hh
    (show b.w + b.x ≤ _ by omega) (show b.h + b.y ≤ _ by omega)
  rw [hs] at e1
  cases e1
  have hd := doImg_ok hc wa ha hm
  rw [hb] at hd
  obtain ⟨h', c', cells', e2, inv2, _⟩ := hd
  unfold letterStep
  rw [e2, Res.ok_bind]
  dsimp only
  have hk := lookLetter_keeps (s := s) (g := g) (l := { l with
      heap := h', ctx := c', nth := uadd l.nth 1
      spaces := if uadd x 4 < b.x then l.spaces ++ [l.nth] else l.spaces }) inv2 hst
  have := hk.1
  refine ⟨by finishes, ?_⟩
  intro r hr
  obtain ⟨q, hq, hr⟩ := Res.bind_eq_ok.1 hr
  cases hr
  exact hk.2 q hq

theorem lineLoop_ends {s : Setup P} {g : RGlyphs} {i : Image} (wf : i.WF) (hh : 0 < i.bounds.h)
    (hsz : i.bounds.w * i.bounds.h + i.bounds.w ≤ W32)
    (hst : ∀ a, CutFrom i a → 2 * (a.bounds.w * a.bounds.h) < W32 ∧ s.Stops a (turned a)) :
    ∀ (fuel x : Nat) (l : Line P) (j : Image) (cells : List (Option Pixel)), x < i.bounds.w → i.bounds.w < fuel + x →
      l.ctx.Inv l.heap j cells → Ends (lineLoop s g i fuel x l)
  | 0, _, _, _, _, hx, hf, _ => by omega
  | fuel + 1, x, l, j, cells, hx, hf, hc => by
    unfold lineLoop
    rcases makeBox_ok wf hx hh hsz with ⟨b, h1, h2, h3⟩ | ⟨b, h1, h2, _⟩ | ⟨h1, _⟩
    · obtain ⟨a, ha, hcut⟩ := h3.cut wf
      obtain ⟨s1, s2⟩ := hst a hcut
      have hb1 := h3.wpos
      have hb2 := h3.notLast
      have hb3 := h3.left
      have hw := wf.w_lt
      rw [h1, Res.ok_bind, if_pos h2]
      obtain ⟨k1, k2⟩ := letterStep_keeps (s := s) (g := g) (x := x) wf hc hb1 h3.hpos h3.right h3.bottom ha s1 s2
      refine Ends.bind_ok k1 fun l' hl' => ?_
      obtain ⟨j', cells', hc'⟩ := k2 l' hl'
      rw [uadd_eq (by omega)]
      exact lineLoop_ends wf hh hsz hst fuel _ l' j' cells' hb2 (by omega) hc'
    · rw [h1, Res.ok_bind, if_neg (by rw [h2]; exact Bool.false_ne_true)]
      finishes
    · rw [h1]
      exact ⟨fun h => nomatch h⟩

end

end Ppocr

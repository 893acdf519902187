import Verif.Model.Tools

/-! # Functions that never throw -/

namespace Ppocr

/-- The result is not an exception. -/
class NoThrow {α : Type} (r : Res α) : Prop where
  out : r ≠ .throw

namespace NoThrow
variable {α β : Type}

instance bind {r : Res α} {f : α → Res β} [h : NoThrow r] [hf : ∀ a, NoThrow (f a)] : NoThrow (r >>= f) := by
  constructor
  cases r with
  | ok a => exact (hf a).out
  | throw => exact absurd rfl h.out
  | abort => exact fun h => nomatch h
  | ub => exact fun h => nomatch h
  | diverge => exact fun h => nomatch h

theorem bind' {r : Res α} {f : α → Res β} (h : NoThrow r) (hf : ∀ a, NoThrow (f a)) : NoThrow (r >>= f) := bind

instance ok (a : α) : NoThrow (.ok a) := ⟨fun h => nomatch h⟩
instance pure (a : α) : NoThrow (Pure.pure a : Res α) := ok a
instance ub : NoThrow (.ub : Res α) := ⟨fun h => nomatch h⟩
instance abort : NoThrow (.abort : Res α) := ⟨fun h => nomatch h⟩
instance diverge : NoThrow (.diverge : Res α) := ⟨fun h => nomatch h⟩
instance ite {c : Prop} [Decidable c] {a b : Res α} [NoThrow a] [NoThrow b] : NoThrow (if c then a else b) := by
  split <;> assumption

theorem bind_ok {r : Res α} {f : α → Res β} (h : NoThrow r) (hf : ∀ a, r = .ok a → NoThrow (f a)) : NoThrow (r >>= f) := by
  cases r with
  | ok a => exact hf a rfl
  | throw => exact absurd rfl h.out
  | abort => exact inferInstanceAs (NoThrow .abort)
  | ub => exact inferInstanceAs (NoThrow .ub)
  | diverge => exact inferInstanceAs (NoThrow .diverge)

end NoThrow

theorem bind_eq_throw {α β : Type} {r : Res α} {f : α → Res β} (h : (r >>= f) = .throw) :
    r = .throw ∨ ∃ a, r = .ok a ∧ f a = .throw := by
  cases r with
  | ok a => exact .inr ⟨a, rfl, h⟩
  | throw => exact .inl rfl
  | abort => cases h
  | ub => cases h
  | diverge => cases h

/-- Follow the structure of a function. -/
macro "nothrow" : tactic => `(tactic| repeat' first
  | assumption
  | infer_instance
  | intro _
  | apply NoThrow.bind'
  | split
  | (dsimp only))

section
variable {P : Type} [Dbl P]

instance (b : Bool) : NoThrow (assert b) := by
  unfold assert
  nothrow

instance (a : Nat) (b : Nat) : NoThrow (udiv a b) := by
  unfold udiv
  nothrow

instance NoThrow.mapM {α β : Type} (f : α → Res β) [∀ a, NoThrow (f a)] : ∀ l : List α, NoThrow (l.mapM f)
  | [] => by
    rw [List.mapM_nil]
    nothrow
  | _ :: l => by
    rw [List.mapM_cons]
    have := NoThrow.mapM f l
    nothrow

instance (v : Int) : NoThrow (si v) := by
  unfold si
  nothrow

instance (α : Type) (l : List α) (i : Nat) : NoThrow (@rd α l i) := by
  unfold rd
  nothrow

instance (α : Type) (o : Out α) (v : α) : NoThrow (@Out.push α o v) := by
  unfold Out.push
  nothrow

instance (α : Type) (src : List α) (i : Nat) (x0 : Nat) (x1 : Out α) : NoThrow (@copyTo α src i x0 x1) := by
  fun_induction copyTo <;> nothrow

/-! ### Images -/

instance (i : Image) (x : Nat) (y : Nat) : NoThrow (Image.dataAt i x y) := by
  unfold Image.dataAt
  nothrow

instance (src : List Pixel) (stride : Nat) (w : Nat) (x0 : Nat) (x1 : Nat) (x2 : Out Pixel) : NoThrow (sectionRows src stride w x0 x1 x2) := by
  fun_induction sectionRows <;> nothrow

instance (src : Image) (o : Out Pixel) (x : Nat) (y : Nat) (b : Bounds) : NoThrow (sectionInto src o x y b) := by
  unfold sectionInto
  nothrow

instance (o : Out Pixel) (b : Bounds) : NoThrow (Out.toImage o b) := by
  unfold Out.toImage
  nothrow

instance (i : Image) (x : Nat) (y : Nat) (b : Bounds) : NoThrow (Image.section i x y b) := by
  unfold Image.section
  nothrow

instance (src : List Pixel) (w : Nat) (e : Nat) (x0 : Nat) (x1 : Nat) (x2 : Out Pixel) : NoThrow (rotCol src w e x0 x1 x2) := by
  fun_induction rotCol <;> nothrow

instance (src : Image) (x0 : Nat) (x1 : Out Pixel) : NoThrow (rotLoop src x0 x1) := by
  fun_induction rotLoop <;> nothrow

instance (i : Image) : NoThrow (Image.clone i) := by
  unfold Image.clone
  nothrow

instance (a : List Pixel) (b : List Pixel) (x0 : Nat) (x1 : Nat) : NoThrow (equalN a b x0 x1) := by
  fun_induction equalN <;> nothrow

instance (a : Image) (b : Image) : NoThrow (Image.eq a b) := by
  unfold Image.eq
  nothrow

/-! ### Boxes -/

instance (data : List Pixel) (x0 : Nat) (x1 : Nat) : NoThrow (horizontalEmpty data x0 x1) := by
  fun_induction horizontalEmpty <;> nothrow

instance (data : List Pixel) (w : Nat) (e : Nat) (x0 : Nat) (x1 : Nat) : NoThrow (verticalEmptyLoop data w e x0 x1) := by
  fun_induction verticalEmptyLoop <;> nothrow

instance (data : List Pixel) (d : Nat) (b : Bounds) : NoThrow (verticalEmpty data d b) := by
  unfold verticalEmpty
  nothrow

instance (c : Bool) (data : List Pixel) (p : Nat) : NoThrow (andLetter c data p) := by
  unfold andLetter
  nothrow

instance (data : List Pixel) (w : Nat) (e : Nat) (d : Nat) : NoThrow (joinedRight data w e d) := by
  unfold joinedRight
  nothrow

instance (data : List Pixel) (w : Nat) (e : Nat) (x0 : Nat) (x1 : Nat) : NoThrow (columnCutLoop data w e x0 x1) := by
  fun_induction columnCutLoop <;> nothrow

instance (data : List Pixel) (d : Nat) (w : Nat) (h : Nat) : NoThrow (columnCut data d w h) := by
  unfold columnCut
  nothrow

instance (data : List Pixel) (b : Bounds) (x0 : Nat) (x1 : Nat) (x2 : Nat) : NoThrow (skipBlankCols data b x0 x1 x2) := by
  fun_induction skipBlankCols <;> nothrow

instance (data : List Pixel) (b : Bounds) (x0 : Nat) (x1 : Nat) (x2 : Nat) : NoThrow (extendCols data b x0 x1 x2) := by
  fun_induction extendCols <;> nothrow

instance (data : List Pixel) (b : Bounds) (w : Nat) (x0 : Nat) (x1 : Nat) (x2 : Nat) : NoThrow (skipBlankRows data b w x0 x1 x2) := by
  fun_induction skipBlankRows <;> nothrow

instance (data : List Pixel) (b : Bounds) (w : Nat) (y : Nat) (x0 : Nat) (x1 : Nat) (x2 : Nat) : NoThrow (skipBottomRows data b w y x0 x1 x2) := by
  fun_induction skipBottomRows <;> nothrow

instance (i : Image) (y0 : Nat) (b : Bounds) (x : Nat) (w : Nat) : NoThrow (boxRows i y0 b x w) := by
  unfold boxRows
  nothrow

instance (i : Image) (x0 : Nat) (y0 : Nat) (b : Bounds) : NoThrow (makeBox i x0 y0 b) := by
  unfold makeBox
  nothrow

/-! ### Zones -/

instance (data : List Pixel) (z : Nat) (cap : Nat) (q : Nat) (s : Fill) : NoThrow (pushIf data z cap q s) := by
  unfold pushIf
  nothrow

instance (c : Bool) (data : List Pixel) (z : Nat) (cap : Nat) (q : Nat) (s : Fill) : NoThrow (pushWhen c data z cap q s) := by
  unfold pushWhen
  nothrow

instance (i : Image) (z : Nat) (cap : Nat) (idx : Nat) (s : Fill) : NoThrow (fillStep i z cap idx s) := by
  unfold fillStep
  nothrow

instance (i : Image) (z : Nat) (cap : Nat) (x0 : Nat) (x1 : Nat) (x2 : Fill) : NoThrow (fillLoop i z cap x0 x1 x2) := by
  fun_induction fillLoop <;> nothrow

instance (i : Image) (cap : Nat) (x0 : Nat) (x1 : Nat) (x2 : List Nat) (x3 : Nat) : NoThrow (labelLoop i cap x0 x1 x2 x3) := by
  fun_induction labelLoop <;> nothrow

instance (i : Image) : NoThrow (labelZones i) := by
  unfold labelZones
  nothrow

instance (l : List Nat) (k : Nat) : NoThrow (bump l k) := by
  unfold bump
  nothrow

instance (i : Image) (m : List Nat) (l : List Nat) (x : Nat) (y : Nat) : NoThrow (insertZone i m l x y) := by
  unfold insertZone
  nothrow

instance (i : Image) (m : List Nat) (x0 : Nat) (x1 : Nat) (x2 : List Nat) (x3 : List Nat) : NoThrow (borderRows i m x0 x1 x2 x3) := by
  fun_induction borderRows <;> nothrow

instance (i : Image) (m : List Nat) (x0 : Nat) (x1 : Nat) (x2 : List Nat) (x3 : List Nat) : NoThrow (borderCols i m x0 x1 x2 x3) := by
  fun_induction borderCols <;> nothrow

instance (i : Image) : NoThrow (countZone i) := by
  unfold countZone
  nothrow

/-! ### Features -/

instance (data : List Pixel) (k : Nat) (x0 : Nat) (x1 : Nat) (x2 : Nat) : NoThrow (addLetters data k x0 x1 x2) := by
  fun_induction addLetters <;> nothrow

instance (data : List Pixel) (k : Nat) (p : Nat) (ep : Nat) (c : Nat) : NoThrow (scanLetters data k p ep c) := by
  unfold scanLetters
  nothrow

instance (i : Image) : NoThrow (densityLoad i) := by
  unfold densityLoad
  nothrow

instance (i : Image) : NoThrow (proportionalityLoad i) := by
  unfold proportionalityLoad
  nothrow

instance (data : List Pixel) (x0 : Nat) (x1 : Nat) : NoThrow (allLetters data x0 x1) := by
  fun_induction allLetters <;> nothrow

instance (data : List Pixel) (w : Nat) (e : Nat) (x0 : Nat) (x1 : Nat) (x2 : Bool) (x3 : Nat) : NoThrow (hbarLoop data w e x0 x1 x2 x3) := by
  fun_induction hbarLoop <;> nothrow

instance (i : Image) : NoThrow (hbarLoad i) := by
  unfold hbarLoad
  nothrow

instance (i : Image) : NoThrow (horizontalDirection i) := by
  unfold horizontalDirection
  nothrow

instance (data : List Pixel) (w : Nat) (ep : Nat) (isTop : Bool) (x0 : Nat) (x1 : Nat) (x2 : Nat) (x3 : Nat) : NoThrow (boxGravityLoop data w ep isTop x0 x1 x2 x3) := by
  fun_induction boxGravityLoop <;> nothrow

instance (data : List Pixel) (w : Nat) (bh : Nat) (p : Nat) (ep : Nat) (isTop : Bool) : NoThrow (boxGravity data w bh p ep isTop) := by
  unfold boxGravity
  nothrow

instance (i : Image) : NoThrow (horizontalGravity i) := by
  unfold horizontalGravity
  nothrow

instance (w : Nat) (k : Nat) : NoThrow (diagX w k) := by
  unfold diagX
  nothrow

instance (data : List Pixel) (w : Nat) (bh : Nat) (ep : Nat) (isTop : Bool) (x0 : Nat) (x1 : Nat) (x2 : Nat) (x3 : Nat) : NoThrow (diagDirLoop data w bh ep isTop x0 x1 x2 x3) := by
  fun_induction diagDirLoop <;> nothrow

instance (i : Image) : NoThrow (diagDirection i) := by
  unfold diagDirection
  nothrow

instance (w : Nat) (ep : Nat) (x0 : Nat) (x1 : Nat) (x2 : Nat) (x3 : Nat) : NoThrow (diagDirAreaLoop w ep x0 x1 x2 x3) := by
  fun_induction diagDirAreaLoop <;> nothrow

instance (i : Image) : NoThrow (diagDirArea i) := by
  unfold diagDirArea
  nothrow

instance (data : List Pixel) (w : Nat) (bh : Nat) (ep : Nat) (isTop : Bool) (x0 : Nat) (x1 : Nat) (x2 : Nat) (x3 : Nat) (x4 : Nat) : NoThrow (diagGravLoop data w bh ep isTop x0 x1 x2 x3 x4) := by
  fun_induction diagGravLoop <;> nothrow

instance (i : Image) : NoThrow (diagGravity i) := by
  unfold diagGravity
  nothrow

instance (w : Nat) (bh : Nat) (ep : Nat) (x0 : Nat) (x1 : Nat) (x2 : Nat) (x3 : Nat) : NoThrow (diagGravAreaLoop w bh ep x0 x1 x2 x3) := by
  fun_induction diagGravAreaLoop <;> nothrow

instance (i : Image) : NoThrow (diagGravArea i) := by
  unfold diagGravArea
  nothrow

instance (base : Nat) (t : TopBottom) (den : Nat) : NoThrow (percent base t den) := by
  unfold percent
  nothrow

instance (t : TopBottom) : NoThrow (ratio200 t) := by
  unfold ratio200
  nothrow

instance (w : Int) (area : Int) (h3 : Int) (w3 : Int) (yp : Int) : NoThrow (dzSpan w area h3 w3 yp) := by
  unfold dzSpan
  nothrow

instance (data : List Pixel) (d : Nat) (xs : Int) (xe : Int) : NoThrow (dzCount data d xs xe) := by
  unfold dzCount
  nothrow

instance (i : Image) (w : Int) (area : Int) (h3 : Int) (w3 : Int) (x0 : Nat) (x1 : Int) (x2 : Nat) (x3 : Int) (x4 : Int) : NoThrow (dzLoop i w area h3 w3 x0 x1 x2 x3 x4) := by
  fun_induction dzLoop <;> nothrow

instance (i : Image) : NoThrow (dzdensityLoad i) := by
  unfold dzdensityLoad
  nothrow

/-! ### Alternations -/

instance (data : List Pixel) (p : Nat) : NoThrow (normalPixel data p) := by
  unfold normalPixel
  nothrow

instance (data : List Pixel) (step : Nat) (e : Nat) (x0 : Nat) (x1 : Nat) : NoThrow (anyPixelLoop data step e x0 x1) := by
  fun_induction anyPixelLoop <;> nothrow

instance (data : List Pixel) (h : Nat) (step : Nat) (p : Nat) : NoThrow (anyPixel data h step p) := by
  unfold anyPixel
  nothrow

instance (get : Nat → Res Bool) (last : Nat) (x : Bool) (x0 : Nat) (x1 : Nat) [∀ y0, NoThrow (get y0)] : NoThrow (skipSame get last x x0 x1) := by
  fun_induction skipSame <;> nothrow

instance (get : Nat → Res Bool) (last : Nat) (x0 : Nat) (x1 : Nat) (x2 : Nat) [∀ y0, NoThrow (get y0)] : NoThrow (altLoop get last x0 x1 x2) := by
  fun_induction altLoop <;> nothrow

instance (i : Image) (y : Nat) (w : Nat) (get : Nat → Res Bool) [∀ y0, NoThrow (get y0)] : NoThrow (makeAlternations i y w get) := by
  unfold makeAlternations
  nothrow

instance (i : Image) (y : Nat) : NoThrow (altRow i y) := by
  unfold altRow
  nothrow

instance (i : Image) (y : Nat) (h : Nat) : NoThrow (altRows i y h) := by
  unfold altRows
  nothrow

instance (i : Image) : NoThrow (altFirst i) := by
  unfold altFirst
  nothrow

instance (i : Image) (r : Image) : NoThrow (alternationsLoad i r) := by
  unfold alternationsLoad
  nothrow

/-! ### Tables of features -/

instance (x0 : TopFn) (x1 : Image) : NoThrow (TopFn.compute x0 x1) := by
  unfold TopFn.compute
  nothrow

instance (V : Type) (f : Image → Res V) (img : Image) (c : Cache V) [∀ y0, NoThrow (f y0)] : NoThrow (@Cache.compute V f img c) := by
  unfold Cache.compute
  nothrow

instance (c : Ctxs) (f : TopFn) (p : Policy) (img : Image) (k : TopBottom → Res Nat) [∀ y0, NoThrow (k y0)] : NoThrow (Ctxs.top c f p img k) := by
  unfold Ctxs.top
  nothrow

instance (c : Ctxs) (p : Policy) (img : Image) (k : ZoneInfo → Res (List Nat)) [∀ y0, NoThrow (k y0)] : NoThrow (Ctxs.zone c p img k) := by
  unfold Ctxs.zone
  nothrow

instance (i : Image) (info : ZoneInfo) : NoThrow (zoneOf i info) := by
  unfold zoneOf
  nothrow

instance (info : ZoneInfo) : NoThrow (propZoneOf info) := by
  unfold propZoneOf
  nothrow

instance (c : Ctxs) (f : TopFn) (p : Policy) (img : Image) (zero : Bool) (k : TopBottom → Res Nat) [∀ y0, NoThrow (k y0)] : NoThrow (Ctxs.top2 c f p img zero k) := by
  unfold Ctxs.top2
  nothrow

instance (f : Feat) (p : Policy) (i : Image) (r : Image) (c : Ctxs) : NoThrow (Feat.loadIn f p i r c) := by
  unfold Feat.loadIn
  nothrow

instance (s : Feat × Policy) (img : Image) (img90 : Image) (c : Ctxs) : NoThrow (stratLoad s img img90 c) := by
  unfold stratLoad
  nothrow

instance (img : Image) (img90 : Image) (x0 : List Table) (x1 : Ctxs) : NoThrow (loadTables img img90 x0 x1) := by
  fun_induction loadTables <;> nothrow

instance (d : Datas) (img : Image) : NoThrow (Datas.load d img) := by
  unfold Datas.load
  nothrow

instance loadAllNoThrow : ∀ (x0 : Datas) (x1 : List Image), NoThrow (x0.loadAll x1)
  | _, [] => by
    unfold Datas.loadAll
    nothrow
  | _, _ :: is => by
    unfold Datas.loadAll
    have := fun d => loadAllNoThrow d is
    nothrow

/-! ### The standard library -/

instance (α : Type) (p : α → Res Bool) (x0 : List α) [∀ y0, NoThrow (p y0)] : NoThrow (@removeIf α p x0) := by
  fun_induction removeIf <;> nothrow

instance (α : Type) (eq : α → α → Res Bool) (last : α) (x0 : List α) [∀ y0 y1, NoThrow (eq y0 y1)] : NoThrow (@uniqueFrom α eq last x0) := by
  fun_induction uniqueFrom <;> nothrow

instance (α : Type) (eq : α → α → Res Bool) (x0 : List α) [∀ y0 y1, NoThrow (eq y0 y1)] : NoThrow (@uniqueBy α eq x0) := by
  unfold uniqueBy
  nothrow

instance (p : Nat → Res Bool) (x0 : Nat) (x1 : Nat) (x2 : Nat) [∀ y0, NoThrow (p y0)] : NoThrow (partitionPoint p x0 x1 x2) := by
  fun_induction partitionPoint <;> nothrow

/-! ### Dictionary -/

instance (src : List Nat) (u : Nat) (p : Nat) : NoThrow (utf8Tail src u p) := by
  unfold utf8Tail
  nothrow

instance (src : List Nat) (pos : Nat) : NoThrow (utf8Next src pos) := by
  unfold utf8Next
  nothrow

instance (E : List FNode) (lo : Nat) (n : Nat) : NoThrow (mkRange E lo n) := by
  unfold mkRange
  nothrow

instance (E : List FNode) : NoThrow (rootRange E) := by
  unfold rootRange
  nothrow

instance (E : List FNode) (i : Nat) : NoThrow (kidsRange E i) := by
  unfold kidsRange
  nothrow

instance (E : List FNode) (r : FRange) (c : Nat) : NoThrow (lowerBound E r c) := by
  unfold lowerBound
  nothrow

instance (E : List FNode) (r : FRange) (c : Nat) : NoThrow (findNode E r c) := by
  unfold findNode
  nothrow

instance (f : List Nat → List Nat → Res (Bool × List Nat)) (x0 : List (List Nat)) (x1 : List Nat) [∀ y0 y1, NoThrow (f y0 y1)] : NoThrow (tryCands f x0 x1) := by
  fun_induction tryCands <;> nothrow

instance (E : List FNode) (isLast : Bool) (next : FRange → List Nat → Res (Bool × List Nat)) (src : List Nat) (x0 : Nat) (x1 : FRange) (x2 : Nat) (x3 : Nat) (x4 : List Nat) [∀ y0 y1, NoThrow (next y0 y1)] : NoThrow (utfChar E isLast next src x0 x1 x2 x3 x4) := by
  fun_induction utfChar <;> nothrow

instance disImplNoThrow (E : List FNode) : ∀ (x0 : List (List (List Nat))) (x1 : FRange) (x2 : List Nat),
    NoThrow (disImpl E x0 x1 x2)
  | [], _, _ => by
    unfold disImpl
    nothrow
  | _ :: rest, _, _ => by
    unfold disImpl
    have := disImplNoThrow E rest
    nothrow

instance (E : List FNode) (table : List (List (List Nat))) (out : List Nat) : NoThrow (disambiguous E table out) := by
  unfold disambiguous
  nothrow

instance (x0 : Nat) (x1 : IS) (x2 : List FNode) : NoThrow (dictLoop x0 x1 x2) := by
  fun_induction dictLoop <;> nothrow

instance (s : IS) (old : List FNode) : NoThrow (dictRead s old) := by
  unfold dictRead
  nothrow

/-! ### Comparing images -/

instance (a : List Pixel) (b : List Pixel) (x0 : Nat) (x1 : Nat) : NoThrow (mismatchN a b x0 x1) := by
  fun_induction mismatchN <;> nothrow

instance (a : Image) (b : Image) : NoThrow (imageCompare a b) := by
  unfold imageCompare
  nothrow

instance (a : Image) (b : Image) : NoThrow (imageLess a b) := by
  unfold imageLess
  nothrow

instance (k : Image) (x0 : List (Image × Nat)) : NoThrow (cacheFind k x0) := by
  fun_induction cacheFind <;> nothrow

instance (k : Image) (r : Nat) (x0 : List (Image × Nat)) : NoThrow (cacheEmplace k r x0) := by
  fun_induction cacheEmplace <;> nothrow

/-! ### The context of images -/

instance (h : Heap) (x0 : UPtr) : NoThrow (Heap.free h x0) := by
  unfold Heap.free
  nothrow

instance (h : Heap) (x0 : UPtr) : NoThrow (Heap.cells h x0) := by
  unfold Heap.cells
  nothrow

instance (h : Heap) (p : UPtr) (n : Nat) : NoThrow (Heap.plus h p n) := by
  unfold Heap.plus
  nothrow

instance (h : Heap) (p : UPtr) (n : Nat) : NoThrow (Heap.load h p n) := by
  unfold Heap.load
  nothrow

instance (h : Heap) (i : ImageRef) : NoThrow (ImageRef.view h i) := by
  unfold ImageRef.view
  nothrow

instance (h : Heap) (i : ImageRef) (b : Bounds) (p : UPtr) : NoThrow (ImageRef.assign h i b p) := by
  unfold ImageRef.assign
  nothrow

instance (h : Heap) (c : Ctx) (n : Nat) : NoThrow (Ctx.grow h c n) := by
  unfold Ctx.grow
  nothrow

instance (h : Heap) (c : Ctx) (b : Bounds) : NoThrow (Ctx.reserve h c b) := by
  unfold Ctx.reserve
  nothrow

instance (h : Heap) (c : Ctx) (b : Bounds) (maker : Out Pixel → Res (Out Pixel)) [∀ y0, NoThrow (maker y0)] : NoThrow (Ctx.doImg h c b maker) := by
  unfold Ctx.doImg
  nothrow

instance (h : Heap) (c : Ctx) : NoThrow (Ctx.doImg90 h c) := by
  unfold Ctx.doImg90
  nothrow

instance (h : Heap) (c : Ctx) : NoThrow (Ctx.destroy h c) := by
  unfold Ctx.destroy
  nothrow

/-! ### Relationships -/

instance (a : Nat) (b : Nat) (interval : Nat) : NoThrow (computeRel a b interval) := by
  unfold computeRel
  nothrow

instance (V : Type) [DecidableEq V] (x0 : List V) (x1 : List V) (x2 : Nat) : NoThrow (@sameCount V _ x0 x1 x2) := by
  fun_induction sameCount <;> nothrow

instance (V : Type) [DecidableEq V] (a : List V) (b : List V) : NoThrow (@arrayCompute V _ a b) := by
  unfold arrayCompute
  nothrow

instance (x0 : List Nat) (x1 : List Nat) (x2 : Nat) : NoThrow (pzSum x0 x1 x2) := by
  fun_induction pzSum <;> nothrow

instance (a : List Nat) (b : List Nat) : NoThrow (pzCompute a b) := by
  unfold pzCompute
  nothrow

/-! ### Reductions -/

instance (data : List Nat) (idx : List Nat) (start : Nat) (stop : Nat) : NoThrow (rangeBounds data idx start stop) := by
  unfold rangeBounds
  nothrow

instance (data : List Nat) (idx : List Nat) (x : Nat) (d : Nat) : NoThrow (getRange data idx x d) := by
  unfold getRange
  nothrow

instance (pred : Nat → Res Bool) (x0 : List Nat) [∀ y0, NoThrow (pred y0)] : NoThrow (anyRes pred x0) := by
  fun_induction anyRes <;> nothrow

instance (byWords : List (List Nat)) (pred : Nat → Res Bool) (i : Nat) [∀ y0, NoThrow (pred y0)] : NoThrow (keepByWord byWords pred i) := by
  unfold keepByWord
  nothrow

instance (β : Type) (byWords : List (List Nat)) (pred : Nat → Res Bool) (x0 : List (Nat × β)) [∀ y0, NoThrow (pred y0)] : NoThrow (@reduceByWord β byWords pred x0) := by
  fun_induction reduceByWord <;> nothrow

instance (β : Type) (ids : List Nat) (a : Nat × β) (b : Nat × β) : NoThrow (@eqViews β ids a b) := by
  unfold eqViews
  nothrow

instance (S : StdSort) (ids : List Nat) (ps : List (Nat × P)) : NoThrow (@sortByViews P _ S ids ps) := by
  unfold sortByViews
  nothrow

instance (ids : List Nat) (ps : List (Nat × P)) : NoThrow (@uniqueByViews P ids ps) := by
  unfold uniqueByViews
  nothrow

instance (cap : Nat) (ids : List Nat) (ps : List (Nat × P)) : NoThrow (@uniqueCopyByViews P cap ids ps) := by
  unfold uniqueCopyByViews
  nothrow

instance (glyphs : List (List View)) (limit : P) (x0 : List (Nat × P)) : NoThrow (@insertViews P _ glyphs limit x0) := by
  fun_induction insertViews <;> nothrow

instance (cap : Nat) (x0 : List Nat) (x1 : List (Nat × Unit)) : NoThrow (emplaceAll cap x0 x1) := by
  fun_induction emplaceAll <;> nothrow

/-! ### Recognition -/

instance {β V : Type} (rel : Rel V) (tab : List V) (value : V) (d : Nat) (ps : List (Nat × β)) [∀ a b d, NoThrow (rel.inDist a b d)] :
    NoThrow (reduceWithDistance rel tab value d ps) := by
  unfold reduceWithDistance
  nothrow

instance {V : Type} (rel : Rel V) (tab : List V) (value : V) (limit : P) (ps : List (Nat × P)) [∀ a b, NoThrow (rel.compute a b)] :
    NoThrow (reduceAndUpdate rel tab value limit ps) := by
  fun_induction reduceAndUpdate <;> nothrow

/-- Loading does not throw. -/
class Simple.Quiet (s : Simple) : Prop where
  load : ∀ a b, NoThrow (s.load a b)

/-- Neither loading nor comparing throws. -/
class Strat.Quiet (s : Strat) : Prop where
  load : ∀ a b, NoThrow (s.load a b)
  compute : ∀ a b, NoThrow (s.rel.compute a b)
  inDist : ∀ a b d, NoThrow (s.rel.inDist a b d)

instance (k a b : Nat) : NoThrow ((intervalRel k).compute a b) := by
  unfold intervalRel
  nothrow

instance (k a b d : Nat) : NoThrow ((intervalRel k).inDist a b d) := by
  unfold intervalRel
  nothrow

instance (cap : Nat) (s : Simple) (idx : List Nat) (value : Nat) : NoThrow (initializeUniverse cap s idx value) := by
  unfold initializeUniverse
  nothrow

theorem loadSimple_noThrow (img img90 : Image) : ∀ l : List Simple, (∀ s ∈ l, s.Quiet) → NoThrow (loadSimple img img90 l)
  | [], _ => by
    unfold loadSimple
    nothrow
  | s :: ss, h => by
    unfold loadSimple
    have := (h s (by simp)).load
    have := loadSimple_noThrow img img90 ss fun t ht => h t (by simp [ht])
    nothrow

instance (l : List (Simple × Nat)) (ps : List (Nat × Unit)) : NoThrow (reduceSimple l ps) := by
  fun_induction reduceSimple <;> nothrow

instance (s : Simple) (value : Nat) (ps : List (Nat × Unit)) : NoThrow (initProb (P := P) s value ps) := by
  fun_induction initProb (P := P) s value ps <;> nothrow

instance (s : Simple) (value : Nat) (ps : List (Nat × P)) : NoThrow (updateProb s value ps) := by
  fun_induction updateProb <;> nothrow

instance (l : List (Simple × Nat)) (ps : List (Nat × P)) : NoThrow (updateAll l ps) := by
  fun_induction updateAll <;> nothrow

theorem computeSimpleUniverse_noThrow (cap : Nat) (s : Simple) (ss : List Simple) (idx : List Nat) (img img90 : Image)
    (h : s.Quiet) (hs : ∀ s ∈ ss, s.Quiet) : NoThrow (computeSimpleUniverse (P := P) cap s ss idx img img90) := by
  unfold computeSimpleUniverse
  have := h.load
  have := loadSimple_noThrow img img90 ss hs
  nothrow

theorem reduceComplex_noThrow (img img90 : Image) : ∀ (l : List Strat) (ps : List (Nat × P)), (∀ s ∈ l, s.Quiet) →
    NoThrow (reduceComplex img img90 l ps)
  | [], _, _ => by
    unfold reduceComplex
    nothrow
  | s :: ss, _, h => by
    unfold reduceComplex
    have := (h s (by simp)).load
    have := (h s (by simp)).compute
    have := fun ps => reduceComplex_noThrow img img90 ss ps fun t ht => h t (by simp [ht])
    nothrow

theorem loadExclusive_noThrow (img img90 : Image) : ∀ (l : List Strat), (∀ s ∈ l, s.Quiet) →
    NoThrow (loadExclusive img img90 l) ∧ ∀ ts, loadExclusive img img90 l = .ok ts → ∀ t ∈ ts, ∀ i, NoThrow (t i)
  | [], _ => by
    unfold loadExclusive
    refine ⟨inferInstance, ?_⟩
    rintro ts h
    cases h
    simp
  | s :: ss, h => by
    unfold loadExclusive
    have h1 := (h s (by simp)).load
    have h2 := (h s (by simp)).inDist
    obtain ⟨h3, h4⟩ := loadExclusive_noThrow img img90 ss fun t ht => h t (by simp [ht])
    refine ⟨by nothrow, ?_⟩
    intro ts e t ht i
    obtain ⟨v, _, e⟩ := Res.bind_eq_ok.1 e
    obtain ⟨r, hr, e⟩ := Res.bind_eq_ok.1 e
    cases e
    rcases List.mem_cons.1 ht with rfl | ht
    · nothrow
    · exact h4 r hr t ht i

theorem allTests_noThrow : ∀ (ts : List (Nat → Res Bool)) (i : Nat), (∀ t ∈ ts, ∀ i, NoThrow (t i)) → NoThrow (allTests ts i)
  | [], _, _ => by
    unfold allTests
    nothrow
  | t :: ts, i, h => by
    unfold allTests
    have := h t (by simp)
    have := allTests_noThrow ts i fun u hu => h u (by simp [hu])
    nothrow

omit [Dbl P] in
theorem reduceExclusive_noThrow (byWords : List (List Nat)) (img img90 : Image) (ss : List Strat) (ps : List (Nat × P))
    (h : ∀ s ∈ ss, s.Quiet) : NoThrow (reduceExclusive byWords img img90 ss ps) := by
  unfold reduceExclusive
  obtain ⟨h1, h2⟩ := loadExclusive_noThrow img img90 ss h
  split
  · infer_instance
  · refine NoThrow.bind_ok h1 fun ts hts => ?_
    have := fun i => allTests_noThrow ts i (h2 ts hts)
    infer_instance

/-- No strategy of the setup throws. -/
class Setup.Quiet (s : Setup P) : Prop where
  first : s.first.Quiet
  simple : ∀ t ∈ s.simple, t.Quiet
  complex : ∀ t ∈ s.complex, t.Quiet
  exclusive : ∀ t ∈ s.exclusive, t.Quiet

instance (s : Setup P) (ps tmp : List (Nat × P)) : NoThrow (finish s ps tmp) := by
  unfold finish
  nothrow

instance (s : Setup P) [h : s.Quiet] (tmp : List (Nat × P)) (img img90 : Image) : NoThrow (computeImage s tmp img img90) := by
  unfold computeImage
  have := computeSimpleUniverse_noThrow (P := P) s.cap s.first s.simple s.idx img img90 h.first h.simple
  have := fun ps : List (Nat × P) => reduceComplex_noThrow img img90 s.complex ps h.complex
  have := fun ps : List (Nat × P) => reduceExclusive_noThrow s.byWords img img90 s.exclusive ps h.exclusive
  nothrow

instance (x0 : List (List View)) (x1 : Nat) (x2 : List (Nat × List Nat)) : NoThrow (collectWords x0 x1 x2) := by
  fun_induction collectWords <;> nothrow

instance (glyphs : List (List View)) : NoThrow (dataIndexesByWords glyphs) := by
  unfold dataIndexesByWords
  nothrow

/-! ### Filters -/

instance (st : List (List View)) (x0 : List Nat) (x1 : List (Nat × Nat)) : NoThrow (countFonts st x0 x1) := by
  fun_induction countFonts <;> nothrow

instance (font : Nat) (x0 : List Nat) (x1 : List (List View)) : NoThrow (keepFonts font x0 x1) := by
  fun_induction keepFonts <;> nothrow

instance (refs : List Nat) (st : List (List View)) : NoThrow (filterByFont refs st) := by
  unfold filterByFont
  nothrow

instance (infos : List WordInfo) (w : Nat) : NoThrow (infosGet infos w) := by
  unfold infosGet
  nothrow

instance (pred : View → Res Bool) (x0 : List View) [∀ y0, NoThrow (pred y0)] : NoThrow (predFirst pred x0) := by
  unfold predFirst
  nothrow

instance (pred : View → Res Bool) (g : List View) [∀ y0, NoThrow (pred y0)] : NoThrow (predLast pred g) := by
  unfold predLast
  nothrow

instance (pred : View → Res Bool) (x0 : List (List View)) (x1 : Nat) [∀ y0, NoThrow (pred y0)] : NoThrow (keepRuns pred x0 x1) := by
  fun_induction keepRuns <;> nothrow

instance (pred : View → Res Bool) (x0 : List (List View)) (x1 : Nat) [∀ y0, NoThrow (pred y0)] : NoThrow (filterRuns pred x0 x1) := by
  fun_induction filterRuns <;> nothrow

instance (pred : View → Res Bool) (r : Bool) (g : List View) (gs : List (List View)) [∀ y0, NoThrow (pred y0)] : NoThrow (keepFirstRuns pred r g gs) := by
  unfold keepFirstRuns
  nothrow

instance (pred : View → Res Bool) (vec : List View) [∀ y0, NoThrow (pred y0)] : NoThrow (filterLine pred vec) := by
  unfold filterLine
  nothrow

instance (ys : List Nat) (k : Nat) : NoThrow (bumpAt ys k) := by
  unfold bumpAt
  nothrow

instance (lo : Nat) (x0 : List Box) (x1 : List Nat) : NoThrow (bumpBottoms lo x0 x1) := by
  fun_induction bumpBottoms <;> nothrow

instance (infos : List WordInfo) (field : WordLines → Nat) (ypos : Nat) (pos : Nat) (v : View) : NoThrow (wordPred infos field ypos pos v) := by
  unfold wordPred
  nothrow

instance (infos : List WordInfo) (minTop : Nat) (b : Box) (vec : List View) (n : Nat) (map : List Nat) (has : Bool) : NoThrow (countMean infos minTop b vec n map has) := by
  unfold countMean
  nothrow

instance (infos : List WordInfo) (baseline : Nat) (minTop : Nat) (x0 : List (Nat × Box)) (x1 : List (List View)) (x2 : List Nat) (x3 : Bool) : NoThrow (basePass infos baseline minTop x0 x1 x2 x3) := by
  fun_induction basePass <;> nothrow

instance (infos : List WordInfo) (meanline : Nat) (x0 : List (Nat × Box)) (x1 : List (List View)) : NoThrow (meanPass infos meanline x0 x1) := by
  fun_induction meanPass <;> nothrow

instance (infos : List WordInfo) (m : MinMax) (l : List (Nat × Box)) (st : List (List View)) (map : List Nat) (has : Bool) : NoThrow (meanIf infos m l st map has) := by
  unfold meanIf
  nothrow

instance (infos : List WordInfo) (boxes : List Box) (refs : List Nat) (st : List (List View)) : NoThrow (filterByLines infos boxes refs st) := by
  unfold filterByLines
  nothrow

/-! ### Glyphs -/

instance (x0 : Nat) (x1 : IS) (x2 : StrMap) (x3 : StrMap) (x4 : List (List View)) : NoThrow (rglyphsLoop x0 x1 x2 x3 x4) := by
  fun_induction rglyphsLoop <;> nothrow

instance (α : Type) (l : List α) (i : Nat) (x : α) : NoThrow (@wr α l i x) := by
  unfold wr
  nothrow

instance (x0 : StrMap) (x1 : List Nat) (x2 : Nat) : NoThrow (reindexLoop x0 x1 x2) := by
  fun_induction reindexLoop <;> nothrow

instance (v : List Nat) (x0 : List View) : NoThrow (reindexViews v x0) := by
  fun_induction reindexViews <;> nothrow

instance (v : List Nat) (x0 : List (List View)) : NoThrow (reindexAll v x0) := by
  fun_induction reindexAll <;> nothrow

instance (b : List (Option Nat)) (x0 : Nat) (x1 : List Nat) : NoThrow (wrAll b x0 x1) := by
  fun_induction wrAll <;> nothrow

instance (x0 : StrMap) (x1 : List (Option Nat)) (x2 : Nat) : NoThrow (fillWords x0 x1 x2) := by
  fun_induction fillWords <;> nothrow

instance (gs : List (List View)) (wm : StrMap) : NoThrow (finishGlyphs gs wm) := by
  unfold finishGlyphs
  nothrow

instance (s : IS) (old : List (List View)) : NoThrow (rglyphsRead s old) := by
  unfold rglyphsRead
  nothrow

instance (b : List (Option Nat)) (i : Nat) : NoThrow (rdByte b i) := by
  unfold rdByte
  nothrow

instance (b : List (Option Nat)) (x0 : Nat) (x1 : Nat) : NoThrow (rdBytes b x0 x1) := by
  fun_induction rdBytes <;> nothrow

instance (b : List (Option Nat)) (i : Nat) : NoThrow (wordSize b i) := by
  unfold wordSize
  nothrow

instance (b : List (Option Nat)) (i : Nat) : NoThrow (getWord b i) := by
  unfold getWord
  nothrow

instance (x0 : List Nat) (x1 : List (Option Nat)) : NoThrow (memCmp x0 x1) := by
  fun_induction memCmp <;> nothrow

instance (b : List (Option Nat)) (s : List Nat) (i : Nat) : NoThrow (wordCompare b s i) := by
  unfold wordCompare
  nothrow

instance (g : RGlyphs) (s : List Nat) (x0 : Nat) (x1 : Nat) : NoThrow (wordIndexLoop g s x0 x1) := by
  fun_induction wordIndexLoop <;> nothrow

instance (g : RGlyphs) (s : List Nat) : NoThrow (wordIndexOf g s) := by
  unfold wordIndexOf
  nothrow

/-! ### Text -/

instance (g : RGlyphs) (x0 : List View) : NoThrow (searchFn g x0) := by
  unfold searchFn
  nothrow

instance (g : RGlyphs) (want : Bool) (x0 : List (List View)) : NoThrow (findFirst g want x0) := by
  fun_induction findFirst <;> nothrow

instance (g : RGlyphs) (x0 : List (List View)) (x1 : List Nat) : NoThrow (appendFirsts g x0 x1) := by
  fun_induction appendFirsts <;> nothrow

instance (g : RGlyphs) (x0 : List (List View)) (x1 : List Nat) (x2 : Nat) : NoThrow (sepLoop g x0 x1 x2) := by
  fun_induction sepLoop <;> nothrow

instance (g : RGlyphs) (E : List FNode) (run : List (List View)) (out : List Nat) : NoThrow (runStep g E run out) := by
  unfold runStep
  nothrow

instance (g : RGlyphs) (E : List FNode) (amb : List (List View)) (x0 : Nat) (x1 : Nat) (x2 : List Nat) (x3 : List Nat) (x4 : Nat) : NoThrow (textLoop g E amb x0 x1 x2 x3 x4) := by
  fun_induction textLoop <;> nothrow

instance (g : RGlyphs) (E : List FNode) (amb : List (List View)) (spaces : List Nat) : NoThrow (disambiguousWithDict g E amb spaces) := by
  unfold disambiguousWithDict
  nothrow

/-! ### The program -/

instance (g : RGlyphs) (x0 : List View) : NoThrow (printWords g x0) := by
  fun_induction printWords <;> nothrow

instance (st : List (List View)) (x0 : List Nat) : NoThrow (derefs st x0) := by
  fun_induction derefs <;> nothrow

/-! ### Strategies -/

instance (s : Feat × Policy) (img : Image) (img90 : Image) : NoThrow (loadStrat s img img90) := by
  unfold loadStrat
  nothrow

/-! ### Positions -/

instance (x0 : Nat) (x1 : IS) (x2 : List WWordLines) : NoThrow (wwordsLoop x0 x1 x2) := by
  fun_induction wwordsLoop <;> nothrow

instance (s : IS) (old : List WWordLines) : NoThrow (wwordsRead s old) := by
  unfold wwordsRead
  nothrow

instance (g : RGlyphs) (x0 : List WWordLines) : NoThrow (infosLoop g x0) := by
  fun_induction infosLoop <;> nothrow

instance (S : StdSort) (g : RGlyphs) (ls : List WWordLines) : NoThrow (wordsInfos S g ls) := by
  unfold wordsInfos
  nothrow

instance (r : RawImage) : NoThrow (RawImage.image r) := by
  unfold RawImage.image
  nothrow

instance (x0 : Nat) (x1 : IS) (x2 : Datas) : NoThrow (datasLoop x0 x1 x2) := by
  fun_induction datasLoop <;> nothrow

instance (x0 : TextFile) : NoThrow (writeDatas x0) := by
  unfold writeDatas
  nothrow

instance (s : Setup P) [s.Quiet] (g : RGlyphs) (l : Line P) : NoThrow (newLetter s g l) := by
  unfold newLetter
  nothrow

instance (s : Setup P) [s.Quiet] (g : RGlyphs) (l : Line P) : NoThrow (lookLetter s g l) := by
  unfold lookLetter
  nothrow

instance (s : Setup P) [s.Quiet] (g : RGlyphs) (i : Image) (x : Nat) (b : Box) (l : Line P) :
    NoThrow (letterStep s g i x b l) := by
  unfold letterStep
  nothrow

instance (s : Setup P) [s.Quiet] (g : RGlyphs) (i : Image) (fuel x : Nat) (l : Line P) : NoThrow (lineLoop s g i fuel x l) := by
  fun_induction lineLoop <;> nothrow

instance (s : Setup P) [s.Quiet] (g : RGlyphs) (infos : List WordInfo) (E : List FNode) (i : Image) :
    NoThrow (extractText s g infos E i) := by
  unfold extractText
  nothrow

/-! ### The strategies of the program -/

instance (d : Datas) (s : Feat × Policy) : (d.simple s).Quiet := by
  constructor
  intro a b
  unfold Datas.simple
  nothrow

instance (d : Datas) (s : Feat × Policy) : (d.strat s).Quiet := by
  unfold Datas.strat
  split
  all_goals
    refine ⟨?_, ?_, ?_⟩
    all_goals
      intros
      simp only [arrayRel, pzRel, equalRel]
      nothrow

instance (S : StdSort) (glyphs : List (List View)) (d : Datas) (bw : List (List Nat)) :
    (setupOf S glyphs d bw : Setup P).Quiet := by
  constructor
  · exact inferInstanceAs (d.simple firstStrat).Quiet
  all_goals
    intro t ht
    obtain ⟨s, _, rfl⟩ := List.mem_map.1 ht
    infer_instance

end

end Ppocr

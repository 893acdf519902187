import Verif.Spec.Command
import Verif.Props.Tools
import Verif.Proofs.Spaced

/-! # Helper lemmas: the command line tools for images -/

namespace Ppocr
open Spec Props

/-! ### Frames -/

theorem replicate_cons_inj {c d : Nat} (h : c ≠ d) : ∀ (m n : Nat) (s t : List Nat),
    List.replicate m c ++ d :: s = List.replicate n c ++ d :: t → m = n ∧ s = t
  | 0, 0, s, t, e => by simpa using e
  | 0, n + 1, s, t, e => by
    simp only [List.replicate_zero, List.nil_append, List.replicate_succ, List.cons_append, List.cons.injEq] at e
    exact absurd e.1.symm h
  | m + 1, 0, s, t, e => by
    simp only [List.replicate_zero, List.nil_append, List.replicate_succ, List.cons_append, List.cons.injEq] at e
    exact absurd e.1 h
  | m + 1, n + 1, s, t, e => by
    simp only [List.replicate_succ, List.cons_append, List.cons.injEq, true_and] at e
    obtain ⟨e1, e2⟩ := replicate_cons_inj h m n s t e
    exact ⟨by omega, e2⟩

theorem rule_inj {m n : Nat} {s t : List Nat} (h : rule m ++ s = rule n ++ t) : m = n ∧ s = t := by
  unfold rule at h
  simp only [List.append_assoc, List.singleton_append] at h
  obtain ⟨e1, e2⟩ := replicate_cons_inj (by decide) _ _ _ _ h
  exact ⟨by omega, e2⟩

theorem padded_rule {w : Nat} (h : w + 3 < W32) : padded (uadd w 3) [58, 10] = rule w := by
  unfold padded rule
  rw [uadd_eq h]
  have : w + 3 - [58, 10].length = w + 1 := by simp
  rw [this, List.replicate_succ' (n := w + 1), List.append_assoc]
  rfl

theorem showRows_ok {data : List Pixel} {w : Nat} : ∀ (n p : Nat), p + n * w ≤ data.length →
    showRows data w n p = .ok ((List.range n).flatMap fun y =>
      58 :: (((data.drop (p + y * w)).take w).map UInt8.toNat ++ [58, 10]))
  | 0, p, _ => rfl
  | n + 1, p, h => by
    rw [Nat.add_mul, Nat.one_mul] at h
    unfold showRows
    rw [copyTo_ok data w p ⟨w, []⟩ (by omega) (by simp), Res.ok_bind, showRows_ok n (p + w) (by omega), Res.ok_bind]
    simp only [Res.pure_eq, List.nil_append, Res.ok.injEq]
    rw [List.range_succ_eq_map, List.flatMap_cons, List.flatMap_map]
    simp only [Nat.zero_mul, Nat.add_zero]
    congr 1
    have : ∀ y, p + w + y * w = p + (y + 1) * w := fun y => by rw [Nat.add_mul, Nat.one_mul]; omega
    simp only [this]

theorem row_eq {i : Image} (hl : i.data.length = i.bounds.w * i.bounds.h) (hp : ∀ p ∈ i.data, p = chDash ∨ p = chX) {y : Nat}
    (hy : y < i.bounds.h) : ((i.data.drop (y * i.bounds.w)).take i.bounds.w).map UInt8.toNat = textRow i y := by
  have hle : y * i.bounds.w + i.bounds.w ≤ i.data.length := by
    rw [hl, ← Nat.succ_mul, Nat.mul_comm]
    exact Nat.mul_le_mul (Nat.le_refl _) hy
  apply List.ext_getElem
  · simp only [List.length_map, List.length_take, List.length_drop, textRow, List.length_range]
    omega
  · intro x h1 h2
    have hx : x < i.bounds.w := by simpa [textRow] using h2
    have hlt : y * i.bounds.w + x < i.data.length := by omega
    simp only [textRow, List.getElem_map, List.getElem_range, List.getElem_take, List.getElem_drop]
    have hpix : pix i x y = some i.data[y * i.bounds.w + x] := by
      unfold pix
      rw [if_pos ⟨hx, hy⟩, List.getElem?_eq_getElem hlt]
    unfold letter
    rw [hpix]
    rcases hp _ (List.getElem_mem hlt) with e | e <;> rw [e] <;> decide

theorem imageShow_ok {i : Image} (hw : i.bounds.w + 3 < W32) (hl : i.data.length = i.bounds.w * i.bounds.h)
    (hp : ∀ p ∈ i.data, p = chDash ∨ p = chX) : imageShow i = .ok (framed i) := by
  unfold imageShow
  rw [showRows_ok _ 0 (by rw [hl, Nat.mul_comm]; omega), Res.ok_bind, padded_rule hw, Res.pure_eq]
  unfold framed
  congr 3
  rw [List.flatMap_def, List.flatMap_def]
  congr 1
  apply List.map_congr_left
  intro y hy
  simp only [Nat.zero_add]
  rw [row_eq hl hp (List.mem_range.1 hy)]

/-- Lines that do not begin with two colons, up to one that does. -/
theorem rows_inj : ∀ (A B : List (List Nat)) (w : Nat) (s t : List Nat), 0 < w → (∀ r ∈ A, r.length = w ∧ 58 ∉ r) →
    (∀ r ∈ B, r.length = w ∧ 58 ∉ r) →
    (A.flatMap fun r => 58 :: (r ++ [58, 10])) ++ (rule w ++ s) = (B.flatMap fun r => 58 :: (r ++ [58, 10])) ++ (rule w ++ t) →
    A = B ∧ s = t
  | [], [], w, s, t, _, _, _, e => by
    simp only [List.flatMap_nil, List.nil_append] at e
    exact ⟨rfl, (rule_inj e).2⟩
  | [], b :: B, w, s, t, hw, _, hB, e => by
    obtain ⟨hb, hn⟩ := hB b (by simp)
    cases b with
    | nil => simp at hb; omega
    | cons c b =>
      simp only [List.flatMap_nil, List.nil_append, List.flatMap_cons, List.cons_append, rule, List.replicate_succ,
        List.cons.injEq] at e
      exact absurd e.2.1.symm (fun h => hn (by simp [h]))
  | a :: A, [], w, s, t, hw, hA, _, e => by
    obtain ⟨ha, hn⟩ := hA a (by simp)
    cases a with
    | nil => simp at ha; omega
    | cons c a =>
      simp only [List.flatMap_nil, List.nil_append, List.flatMap_cons, List.cons_append, rule, List.replicate_succ,
        List.cons.injEq] at e
      exact absurd e.2.1 (fun h => hn (by simp [h]))
  | a :: A, b :: B, w, s, t, hw, hA, hB, e => by
    have ha := (hA a (by simp)).1
    have hb := (hB b (by simp)).1
    simp only [List.flatMap_cons, List.cons_append, List.append_assoc, List.cons.injEq, true_and, List.nil_append] at e
    obtain ⟨e1, e2⟩ := List.append_inj e (by rw [ha, hb])
    simp only [List.cons.injEq, true_and] at e2
    obtain ⟨e3, e4⟩ := rows_inj A B w s t hw (fun r hr => hA r (by simp [hr])) (fun r hr => hB r (by simp [hr])) e2
    exact ⟨by rw [e1, e3], e4⟩

theorem textRow_good (i : Image) (y : Nat) : (textRow i y).length = i.bounds.w ∧ 58 ∉ textRow i y := by
  constructor
  · simp [textRow]
  · intro h
    obtain ⟨x, _, e⟩ := List.mem_map.1 h
    split at e <;> simp at e

theorem cut_ext {a b : Image} (ha : Cut a) (hb : Cut b) (hw : a.bounds = b.bounds)
    (h : ∀ x y, x < a.bounds.w → y < a.bounds.h → letter a x y = letter b x y) : a = b := by
  obtain ⟨ab, ad⟩ := a
  obtain ⟨bb, bd⟩ := b
  simp only at hw
  subst hw
  congr 1
  have h1 := ha.len
  have h2 := hb.len
  simp only at h1 h2
  apply List.ext_getElem (by rw [h1, h2])
  intro k k1 k2
  have hw := ha.w
  simp only at hw h
  have hx : k % ab.w < ab.w := Nat.mod_lt _ hw
  have hy : k / ab.w < ab.h := by
    rw [Nat.div_lt_iff_lt_mul hw, Nat.mul_comm]
    omega
  have hk : k / ab.w * ab.w + k % ab.w = k := by rw [Nat.mul_comm]; exact Nat.div_add_mod k ab.w
  have := h _ _ hx hy
  unfold letter pix at this
  simp only at this
  rw [if_pos ⟨hx, hy⟩, if_pos ⟨hx, hy⟩, hk, List.getElem?_eq_getElem k1, List.getElem?_eq_getElem k2] at this
  rcases ha.pixels _ (List.getElem_mem k1) with e | e <;> rcases hb.pixels _ (List.getElem_mem k2) with e' | e' <;>
    rw [e, e'] at this ⊢ <;> revert this <;> decide

theorem framed_inj {a b : Image} {s t : List Nat} (ha : Cut a) (hb : Cut b) (h : framed a ++ s = framed b ++ t) :
    a = b ∧ s = t := by
  unfold framed at h
  simp only [List.append_assoc] at h
  obtain ⟨hw, h⟩ := rule_inj h
  rw [← hw] at h
  have key := rows_inj ((List.range a.bounds.h).map (textRow a)) ((List.range b.bounds.h).map (textRow b)) a.bounds.w s t ha.w
    (by
      intro r hr
      obtain ⟨y, _, rfl⟩ := List.mem_map.1 hr
      exact textRow_good a y)
    (by
      intro r hr
      obtain ⟨y, _, rfl⟩ := List.mem_map.1 hr
      rw [hw]
      exact textRow_good b y) (by simpa only [List.flatMap_map] using h)
  obtain ⟨e, est⟩ := key
  have hh : a.bounds.h = b.bounds.h := by simpa using congrArg List.length e
  have hbd : a.bounds = b.bounds := by
    cases ea : a.bounds; cases eb : b.bounds
    rw [ea, eb] at hw hh
    simp only at hw hh
    rw [hw, hh]
  refine ⟨cut_ext ha hb hbd ?_, est⟩
  intro x y hx hy
  have e1 : textRow a y = textRow b y := by
    have := congrArg (fun l => l[y]?) e
    simpa [hy, ← hh] using this
  have e2 := congrArg (fun l => l[x]?) e1
  simp only [textRow, List.getElem?_map, List.getElem?_range hx, List.getElem?_range (hbd ▸ hx), Option.map_some,
    Option.some.injEq] at e2
  cases h1 : letter a x y <;> cases h2 : letter b x y <;> simp [h1, h2] at e2 ⊢

theorem gallery_inj : ∀ (as bs : List Image), (∀ a ∈ as, Cut a) → (∀ b ∈ bs, Cut b) → gallery as = gallery bs → as = bs
  | [], [], _, _, _ => rfl
  | [], b :: bs, _, _, e => by simp [gallery, framed, rule] at e
  | a :: as, [], _, _, e => by simp [gallery, framed, rule] at e
  | a :: as, b :: bs, ha, hb, e => by
    unfold gallery at e
    simp only [List.flatMap_cons, List.append_assoc, List.singleton_append] at e
    obtain ⟨e1, e2⟩ := framed_inj (ha a (by simp)) (hb b (by simp)) e
    simp only [List.cons.injEq, true_and] at e2
    rw [e1, gallery_inj as bs (fun c hc => ha c (by simp [hc])) (fun c hc => hb c (by simp [hc])) e2]

/-! ### The loops -/

theorem showLoop_ok {i : Image} (fuel : Nat) : ∀ (x : Nat) (bs : List Box) (as : List Image) (out : List Nat),
    segmentFrom i fuel x = .ok bs → Pictures i bs as → (∀ a ∈ as, imageShow a = .ok (framed a)) →
    showLoop i fuel x out = ⟨out ++ gallery as, .ok ()⟩ := by
  induction fuel with
  | zero => intro x bs as out h; simp [segmentFrom] at h
  | succ fuel ih =>
    intro x bs as out h hp hf
    unfold segmentFrom at h
    obtain ⟨b, hb, h⟩ := Res.bind_eq_ok.1 h
    unfold showLoop showStep
    rw [hb, Res.ok_bind]
    by_cases ht : b.truthy = true
    · rw [if_pos ht] at h ⊢
      obtain ⟨bs', hbs, h⟩ := Res.bind_eq_ok.1 h
      simp only [Res.pure_eq, Res.ok.injEq] at h
      subst h
      cases as with
      | nil => exact absurd hp (by simp [Pictures])
      | cons a as =>
        rw [hp.1, Res.ok_bind, hf a (by simp), Res.ok_bind]
        simp only [Res.pure_eq]
        rw [ih _ bs' as _ hbs hp.2 (fun c hc => hf c (by simp [hc]))]
        simp [gallery]
    · rw [if_neg ht] at h ⊢
      simp only [Res.pure_eq, Res.ok.injEq] at h
      subst h
      cases as with
      | cons a as => exact absurd hp (by simp [Pictures])
      | nil => simp [gallery]

theorem shown_cut {lum : Nat} {e : FileEnv} {i : Image} {bs : List Box} {as : List Image} (hl : loadImage e lum = .ok i)
    (hsz : i.bounds.w * i.bounds.h + i.bounds.w ≤ 2 ^ 32) (hs : segment i = .ok bs) (hp : Pictures i bs as) :
    ∀ a ∈ as, Cut a ∧ a.bounds.w + 3 < W32 ∧ 0 < a.bounds.h := by
  have hpic := loadImage_picture hl
  rcases segmentFrom_ok hpic.wf hpic.h hsz (i.bounds.w + 1) 0 hpic.w (by omega) (by omega) with
    ⟨bs', h1, _, _, h4, _⟩ | ⟨h1, _⟩
  · have hb : bs' = bs := by
      unfold segment at hs
      rw [h1] at hs
      cases hs; rfl
    subst hb
    intro a ha
    obtain ⟨b, hb, e⟩ := pictures_box hp ha
    obtain ⟨_, ⟨x0, c⟩, _⟩ := h4 b hb
    obtain ⟨a', e1, wa, hab, _⟩ := C55_section i hpic.wf b.x b.y b.bounds c.wpos c.hpos
      (by have := c.right; show b.w + b.x ≤ _; omega) (by have := c.bottom; show b.h + b.y ≤ _; omega)
    rw [e] at e1
    cases e1
    have hw : 0 < a.bounds.w := by rw [hab]; exact c.wpos
    have hh : 0 < a.bounds.h := by rw [hab]; exact c.hpos
    refine ⟨⟨hw, wa.len, fun p hp => hpic.pixels p (section_mem e p hp)⟩, ?_, hh⟩
    have h1 : a.bounds.w ≤ i.bounds.w := by rw [hab]; have := c.right; show b.w ≤ _; omega
    have h2 : i.bounds.w * 1 ≤ i.bounds.w * i.bounds.h := Nat.mul_le_mul (Nat.le_refl _) hpic.h
    simp only [W32]
    omega
  · unfold segment at hs
    rw [h1] at hs
    cases hs

/-! ### The number of the option -/

theorem parseSign_cases {v : List Nat} : (parseSign v = (false, v)) ∨ (∃ t, v = 43 :: t ∧ parseSign v = (false, t)) ∨
    ∃ t, v = 45 :: t ∧ parseSign v = (true, t) := by
  cases v with
  | nil => exact .inl rfl
  | cons c t =>
    simp only [parseSign]
    by_cases h : c = 45
    · rw [if_pos h]; exact .inr (.inr ⟨t, by rw [h], rfl⟩)
    · rw [if_neg h]
      by_cases h2 : c = 43
      · rw [if_pos h2]; exact .inr (.inl ⟨t, by rw [h2], rfl⟩)
      · rw [if_neg h2]; exact .inl rfl

/-- The threshold `luminance` for an argument, unless the program gives up. -/
def lumOf (v : List Nat) : Option Nat :=
  if (strtoul v).rest = v ∨ (strtoul v).rest ≠ [] ∨ (strtoul v).error = true then none else some ((strtoul v).value % W32)

theorem lumOption_eq (v a : List Nat) (as : List (List Nat)) :
    lumOption ([45, 108] :: v :: a :: as) = match lumOf v with | none => .error 2 | some t => .ok (t, a :: as) := by
  unfold lumOption lumOf
  simp only [if_true]
  split <;> rfl

theorem lumOption_plain {args : List (List Nat)} (h : args.head? ≠ some [45, 108] ∨ args.length < 3) :
    lumOption args = .ok (128, args) := by
  match args, h with
  | [], _ => rfl
  | [_], _ => rfl
  | [_, _], _ => rfl
  | o :: v :: a :: as, h =>
    have : ¬ o = [45, 108] := by
      rintro rfl
      rcases h with h | h
      · exact h rfl
      · simp only [List.length_cons] at h
        omega
    simp only [lumOption]
    rw [if_neg this]

theorem lumOf_some {v : List Nat} {k : Int} (h : Amount v k) : lumOf v = some (k % 2 ^ 32).toNat := by
  obtain ⟨p, sgn, d, n, rfl, hp, ⟨hd, hdd, hn⟩, hlt, hs⟩ := h
  have hdd' : ∀ c ∈ d, isDec c = true := fun c hc => digit_iff.2 (hdd c hc)
  have hp' : ∀ c ∈ p, isSpace c = true := fun c hc => isBlank_iff.2 (hp c hc)
  obtain ⟨c, d', rfl⟩ := List.exists_cons_of_ne_nil hd
  have hc := hdd c (by simp)
  unfold Digit at hc
  have htw : (c :: d').takeWhile isDec = c :: d' := takeWhile_self.2 hdd'
  have hdw : (c :: d').dropWhile isDec = [] := by
    have := List.takeWhile_append_dropWhile (p := isDec) (l := c :: d')
    rw [htw] at this
    simpa using this
  have hskip : (p ++ (sgn ++ c :: d')).dropWhile isSpace = sgn ++ c :: d' := by
    rw [List.dropWhile_append_of_pos hp']
    rcases hs with ⟨rfl, _⟩ | ⟨rfl, _⟩ | ⟨rfl, _⟩ <;> simp only [List.nil_append, List.cons_append, List.dropWhile_cons]
    · rw [if_neg]
      rw [isBlank_iff]
      unfold Blank
      omega
    · rw [if_neg (by decide)]
    · rw [if_neg (by decide)]
  have hval : decVal (c :: d') = n := by rw [decVal_numeral, hn]
  have hsg : parseSign (sgn ++ c :: d') = (decide (sgn = [45]), c :: d') := by
    rcases hs with ⟨rfl, _⟩ | ⟨rfl, _⟩ | ⟨rfl, _⟩
    · simp only [List.nil_append, parseSign]
      rw [if_neg (by omega), if_neg (by omega)]
      rfl
    · rfl
    · rfl
  have hst : strtoul (p ++ (sgn ++ c :: d')) = ⟨if sgn = [45] then (2 ^ 64 - n) % 2 ^ 64 else n, [], false⟩ := by
    unfold strtoul
    rw [hskip, hsg]
    simp only [htw, hdw, hval, List.isEmpty_cons, Bool.false_eq_true, if_false]
    rw [if_neg (by omega)]
    by_cases h45 : sgn = [45] <;> simp [h45]
  unfold lumOf
  rw [hst]
  simp only [ne_eq, not_true, Bool.false_eq_true, or_false, or_self]
  rw [if_neg (by simp), Option.some.injEq]
  rcases hs with ⟨rfl, rfl⟩ | ⟨rfl, rfl⟩ | ⟨rfl, rfl⟩
  · rw [if_neg (by simp)]; simp only [W32]; omega
  · rw [if_neg (by simp)]; simp only [W32]; omega
  · rw [if_pos rfl]; simp only [W32]; omega

theorem lumOf_none {v : List Nat} (h : ¬ ∃ k, Amount v k) : lumOf v = none := by
  unfold lumOf
  rw [if_pos]
  apply Classical.byContradiction
  intro hn
  apply h
  have hv := List.takeWhile_append_dropWhile (p := isSpace) (l := v)
  have hb : ∀ c ∈ v.takeWhile isSpace, Blank c := fun c hc => isBlank_iff.1 (takeWhile_all _ c hc)
  have main : ∀ (neg : Bool) (sgn l : List Nat), v.dropWhile isSpace = sgn ++ l → parseSign (v.dropWhile isSpace) = (neg, l) →
      (sgn = [] ∧ neg = false ∨ sgn = [43] ∧ neg = false ∨ sgn = [45] ∧ neg = true) → ∃ k, Amount v k := by
    intro neg sgn l hl hpar hsgn
    unfold strtoul at hn
    rw [hpar] at hn
    simp only at hn
    by_cases h0 : (l.takeWhile isDec).isEmpty = true
    · rw [if_pos h0] at hn
      exact absurd (.inl rfl) hn
    · rw [if_neg h0] at hn
      by_cases h1 : 2 ^ 64 ≤ decVal (l.takeWhile isDec)
      · rw [if_pos h1] at hn
        exact absurd (.inr (.inr rfl)) hn
      · rw [if_neg h1] at hn
        have hr : l.dropWhile isDec = [] := by
          apply Classical.byContradiction
          intro hr
          exact hn (.inr (.inl hr))
        have hld := List.takeWhile_append_dropWhile (p := isDec) (l := l)
        rw [hr, List.append_nil] at hld
        rw [hld] at h0 h1
        have hnum : Numeral l (decVal l) := by
          refine ⟨by intro e; rw [e] at h0; exact h0 rfl, ?_, (decVal_numeral l).symm⟩
          intro c hc
          rw [← hld] at hc
          exact digit_iff.1 (takeWhile_all _ c hc)
        refine ⟨if neg then -(decVal l : Int) else decVal l, _, sgn, l, decVal l, by rw [← hl, hv], hb, hnum, by omega, ?_⟩
        rcases hsgn with ⟨h1, h2⟩ | ⟨h1, h2⟩ | ⟨h1, h2⟩ <;> simp [h1, h2]
  rcases parseSign_cases (v := v.dropWhile isSpace) with e | ⟨t, e1, e⟩ | ⟨t, e1, e⟩
  · exact main false [] _ rfl e (.inl ⟨rfl, rfl⟩)
  · exact main false [43] t e1 e (.inr (.inl ⟨rfl, rfl⟩))
  · exact main true [45] t e1 e (.inr (.inr ⟨rfl, rfl⟩))

/-! ### The threshold -/

theorem decodeP6_high {a b : Nat} (ha : 256 ≤ a) (hb : 256 ≤ b) : ∀ (l : List UInt8) (o : Out Pixel),
    decodeP6 a l o = decodeP6 b l o
  | [], o => by rw [decodeP6, decodeP6]
  | [_], o => by rw [decodeP6, decodeP6] <;> simp
  | [_, _], o => by rw [decodeP6, decodeP6] <;> simp
  | r :: g :: c :: t, o => by
    have hl : luma r g c < 256 := Nat.mod_lt _ (by decide)
    rw [decodeP6, decodeP6, if_pos (by omega), if_pos (by omega)]
    exact congrArg (fun k => o.push chDash >>= k) (funext fun o' => decodeP6_high ha hb t o')

end Ppocr

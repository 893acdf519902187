import Verif.Proofs.Alike
import Verif.Proofs.Line6

/-! # Proofs: two lines with the same letters in `extract_text6` and `extract_text8` -/

namespace Ppocr
open Spec

/-! ### The loop on two lines -/

/-- The letters of two lines from the columns `x` and `x'` on. -/
def InStep6 (i i' : Image) : Nat → Nat → List Box → List Box → Prop
  | x, x', b :: bs, b' :: bs' =>
    i'.section b'.x b'.y b'.bounds = i.section b.x b.y b.bounds ∧ (x' + 4 < b'.x ↔ x + 4 < b.x) ∧
    InStep6 i i' (b.x + b.w) (b'.x + b'.w) bs bs'
  | _, _, [], [] => True
  | _, _, _, _ => False

theorem inStep6_of {i i' : Image} : ∀ {x x' : Nat} {bs bs' : List Box} {as : List Image}, Pictures i bs as → Pictures i' bs' as →
    (∀ k b b', bs[k]? = some b → bs'[k]? = some b' → (endFrom x' bs' k + 4 < b'.x ↔ endFrom x bs k + 4 < b.x)) →
    InStep6 i i' x x' bs bs'
  | _, _, [], [], _, _, _, _ => trivial
  | _, _, [], _ :: _, [], _, h, _ => h.elim
  | _, _, [], _ :: _, _ :: _, h, _, _ => h.elim
  | _, _, _ :: _, [], [], h, _, _ => h.elim
  | _, _, _ :: _, [], _ :: _, _, h, _ => h.elim
  | _, _, _ :: _, _ :: _, [], h, _, _ => h.elim
  | x, x', b :: bs, b' :: bs', a :: as, hp, hp', hg => by
    refine ⟨by rw [hp.1, hp'.1], hg 0 b b' rfl rfl, inStep6_of hp.2 hp'.2 ?_⟩
    intro k d d' hd hd'
    have := hg (k + 1) d d' hd hd'
    cases k with
    | zero => exact this
    | succ k => exact this

section
variable (compute : Image → Image → Res Letter6)

theorem letterStep6_same {i i' : Image} {x x' : Nat} {b b' : Box}
    (hp : i'.section b'.x b'.y b'.bounds = i.section b.x b.y b.bounds) (hg : uadd x' 4 < b'.x ↔ uadd x 4 < b.x) (l : Line6) :
    letterStep6 compute i' x' b' l = letterStep6 compute i x b l := by
  have e : (if uadd x' 4 < b'.x then l.amb ++ [[[32]]] else l.amb) = if uadd x 4 < b.x then l.amb ++ [[[32]]] else l.amb := by
    by_cases h : uadd x 4 < b.x
    · rw [if_pos h, if_pos (hg.2 h)]
    · rw [if_neg h, if_neg fun k => h (hg.1 k)]
  unfold letterStep6
  rw [hp, e]

theorem lineLoop6_same {i i' : Image} : ∀ (fuel fuel' x x' : Nat) (bs bs' : List Box) (l : Line6), segmentFrom i fuel x = .ok bs →
    segmentFrom i' fuel' x' = .ok bs' → InStep6 i i' x x' bs bs' → x + 4 < W32 → x' + 4 < W32 →
    (∀ b ∈ bs, b.x + b.w + 4 < W32) → (∀ b ∈ bs', b.x + b.w + 4 < W32) →
    lineLoop6 compute i' fuel' x' l = lineLoop6 compute i fuel x l
  | 0, _, _, _, _, _, _, h, _, _, _, _, _, _ => by simp [segmentFrom] at h
  | _ + 1, 0, _, _, _, _, _, _, h, _, _, _, _, _ => by simp [segmentFrom] at h
  | fuel + 1, fuel' + 1, x, x', bs, bs', l, h1, h2, ha, hx, hx', hb, hb' => by
    unfold segmentFrom at h1 h2
    obtain ⟨b, e1, h1⟩ := Res.bind_eq_ok.1 h1
    obtain ⟨b', e2, h2⟩ := Res.bind_eq_ok.1 h2
    unfold lineLoop6
    rw [e1, e2, Res.ok_bind, Res.ok_bind]
    by_cases t : b.truthy = true
    · rw [if_pos t] at h1
      obtain ⟨cs, f1, h1⟩ := Res.bind_eq_ok.1 h1
      cases h1
      by_cases t' : b'.truthy = true
      · rw [if_pos t'] at h2
        obtain ⟨cs', f2, h2⟩ := Res.bind_eq_ok.1 h2
        cases h2
        obtain ⟨a1, a2, a3⟩ := ha
        have k := hb b (by simp)
        have k' := hb' b' (by simp)
        rw [uadd_eq (by omega)] at f1 f2
        rw [if_pos t, if_pos t', letterStep6_same compute a1 (x := x) (by rw [uadd_eq (by omega), uadd_eq (by omega)]; exact a2),
          uadd_eq (by omega), uadd_eq (by omega)]
        refine res_bind_congr fun r => ?_
        exact lineLoop6_same fuel fuel' _ _ cs cs' r f1 f2 a3 (by omega) (by omega) (fun c hc => hb c (by simp [hc]))
          (fun c hc => hb' c (by simp [hc]))
      · rw [if_neg t'] at h2
        cases h2
        exact ha.elim
    · rw [if_neg t] at h1
      cases h1
      by_cases t' : b'.truthy = true
      · rw [if_pos t'] at h2
        obtain ⟨cs', f2, h2⟩ := Res.bind_eq_ok.1 h2
        cases h2
        exact ha.elim
      · rw [if_neg t, if_neg t']

/-! ### The list of candidates so far is only added to -/

theorem letterStep6_amb (i : Image) (x : Nat) (b : Box) (A : List Words) (l : Line6) :
    letterStep6 compute i x b { l with amb := A ++ l.amb } =
      letterStep6 compute i x b l >>= fun r => .ok { r with amb := A ++ r.amb } := by
  have e : (if uadd x 4 < b.x then A ++ l.amb ++ [[[32]]] else A ++ l.amb) =
      A ++ if uadd x 4 < b.x then l.amb ++ [[[32]]] else l.amb := by
    split
    · rw [List.append_assoc]
    · rfl
  unfold letterStep6
  dsimp only
  rw [e]
  simp only [Res.bind_assoc]
  refine res_bind_congr fun img => res_bind_congr fun hit => ?_
  cases hit with
  | some r => simp only [Res.bind_assoc, Res.pure_eq, Res.ok_bind, List.append_assoc]
  | none => simp only [Res.bind_assoc, Res.pure_eq, Res.ok_bind, List.append_assoc]

theorem lineLoop6_amb (i : Image) (A : List Words) : ∀ (fuel x : Nat) (l : Line6),
    lineLoop6 compute i fuel x { l with amb := A ++ l.amb } =
      lineLoop6 compute i fuel x l >>= fun r => .ok { r with amb := A ++ r.amb }
  | 0, _, _ => rfl
  | fuel + 1, x, l => by
    unfold lineLoop6
    rw [Res.bind_assoc]
    refine res_bind_congr fun b => ?_
    by_cases t : b.truthy = true
    · rw [if_pos t, if_pos t, letterStep6_amb, Res.bind_assoc, Res.bind_assoc]
      refine res_bind_congr fun r => ?_
      rw [Res.ok_bind, lineLoop6_amb i A fuel]
    · rw [if_neg t, if_neg t]
      rfl

/-- What does not depend on the spaces. -/
def unspaced (l : Line6) : Line6 := { l with amb := [] }

theorem letterStep6_unspaced {i i' : Image} {x x' : Nat} {b b' : Box} {l l' : Line6}
    (hp : i'.section b'.x b'.y b'.bounds = i.section b.x b.y b.bounds) (hl : unspaced l' = unspaced l) :
    (letterStep6 compute i' x' b' l' >>= fun r => .ok (unspaced r)) =
      letterStep6 compute i x b l >>= fun r => .ok (unspaced r) := by
  obtain ⟨c, s, a, r1, r2⟩ := l
  obtain ⟨c', s', a', r1', r2'⟩ := l'
  simp only [unspaced, Line6.mk.injEq, true_and] at hl
  obtain ⟨rfl, rfl, rfl, rfl⟩ := hl
  unfold letterStep6
  dsimp only
  rw [hp]
  simp only [Res.bind_assoc]
  refine res_bind_congr fun img => res_bind_congr fun hit => ?_
  cases hit with
  | some r => simp only [Res.bind_assoc, Res.pure_eq, Res.ok_bind, unspaced]
  | none => simp only [Res.bind_assoc, Res.pure_eq, Res.ok_bind, unspaced]

end

/-! ### Spaces in front are not looked at -/

theorem sepLoop6_length : ∀ (ls : List Words) (out : List Nat), (sepLoop6 ls out).2.length ≤ ls.length
  | [], _ => Nat.le_refl _
  | [] :: ls, out => by
    have := sepLoop6_length ls (out ++ [63])
    simp only [sepLoop6, List.length_cons]
    omega
  | (w :: l) :: ls, out => by
    have := sepLoop6_length ls (out ++ w)
    unfold sepLoop6
    split
    · simp only [List.length_cons]
      omega
    · exact Nat.le_refl _

theorem sepLoop6_less : ∀ (l : Words) (ls : List Words) (out : List Nat), isSep6 l = true →
    (sepLoop6 (l :: ls) out).2.length < (l :: ls).length
  | [], ls, out, _ => by
    have := sepLoop6_length ls (out ++ [63])
    simp only [sepLoop6, List.length_cons]
    omega
  | w :: l, ls, out, h => by
    have := sepLoop6_length ls (out ++ w)
    unfold sepLoop6
    rw [if_pos h]
    simp only [List.length_cons]
    omega

theorem textLoop6_fuel (E : List FNode) : ∀ (fuel fuel' : Nat) (ls : List Words) (out : List Nat), ls.length < fuel →
    ls.length < fuel' → textLoop6 E fuel ls out = textLoop6 E fuel' ls out
  | 0, _, _, _, h, _ => by omega
  | _ + 1, 0, _, _, _, h => by omega
  | fuel + 1, fuel' + 1, ls, out, h, h' => by
    unfold textLoop6
    cases ls with
    | nil => rfl
    | cons l ls =>
      rw [if_neg (by simp), if_neg (by simp)]
      dsimp only
      refine res_bind_congr fun r => ?_
      have hlt : ∀ o, (sepLoop6 ((l :: ls).dropWhile fun l => !isSep6 l) o).2.length < (l :: ls).length := by
        intro o
        by_cases hl : isSep6 l = true
        · rw [List.dropWhile_cons_of_neg (by simp [hl])]
          exact sepLoop6_less l ls o hl
        · rw [List.dropWhile_cons_of_pos (by simpa using hl)]
          have h1 := sepLoop6_length (ls.dropWhile fun l => !isSep6 l) o
          have h2 := (List.dropWhile_sublist (l := ls) fun l => !isSep6 l).length_le
          simp only [List.length_cons]
          omega
      apply textLoop6_fuel E fuel fuel'
      · have := hlt (if r.1 then r.2 else r.2 ++ (((l :: ls).takeWhile fun l => !isSep6 l).filterMap List.head?).flatten)
        omega
      · have := hlt (if r.1 then r.2 else r.2 ++ (((l :: ls).takeWhile fun l => !isSep6 l).filterMap List.head?).flatten)
        omega

theorem text6_front (E : List FNode) (amb : List Words) : text6 E ([[32]] :: amb) = text6 E amb := by
  unfold text6
  rw [List.dropWhile_cons_of_pos (by rfl)]
  have := (List.dropWhile_sublist (l := amb) isSep6).length_le
  apply textLoop6_fuel
  · simp only [List.length_cons]; omega
  · omega

/-! ### The line -/

theorem endFrom_zero (bs : List Box) (k : Nat) : endFrom 0 bs k = endBefore bs k := by cases k <;> rfl

/-- The loop on a line that starts with letter `b`. -/
theorem lineLoop6_first (compute : Image → Image → Res Letter6) {i : Image} {b : Box} {x : Nat} (e : makeBox i x 0 i.bounds = .ok b)
    (t : b.truthy = true) (fuel : Nat) (l : Line6) :
    lineLoop6 compute i (fuel + 1) x l = letterStep6 compute i x b l >>= fun r => lineLoop6 compute i fuel (uadd b.x b.w) r := by
  rw [lineLoop6, e, Res.ok_bind, if_pos t]

/-- A space before the first letter is the same as a space the list of candidates begins with. -/
theorem letterStep6_gap (compute : Image → Image → Res Letter6) {i i' : Image} {x x' : Nat} {b b' : Box}
    (hp : i'.section b'.x b'.y b'.bounds = i.section b.x b.y b.bounds) (hg' : uadd x' 4 < b'.x) (hg : ¬ uadd x 4 < b.x) (l : Line6) :
    letterStep6 compute i' x' b' l = letterStep6 compute i x b { l with amb := l.amb ++ [[[32]]] } := by
  unfold letterStep6
  dsimp only
  rw [hp, if_pos hg', if_neg hg]

theorem extract6_front (compute : Image → Image → Res Letter6) (E : List FNode) {i i' : Image} {bs bs' : List Box} {as : List Image}
    (h : SameLetters i i' bs bs' as) (hb : ∀ b ∈ bs, b.x + b.w + 4 < W32) (hb' : ∀ b ∈ bs', b.x + b.w + 4 < W32)
    (g0 : ¬ Gap bs 0) (g0' : Gap bs' 0) : extract6 compute E i' = extract6 compute E i := by
  have hW : W32 = 4294967296 := rfl
  obtain ⟨l1, l2, p1, p2, sp⟩ := h
  cases bs with
  | nil =>
    cases as with
    | cons _ _ => exact p1.elim
    | nil =>
      cases bs' with
      | cons _ _ => exact p2.elim
      | nil => obtain ⟨_, e, _⟩ := g0'; cases e
  | cons b bs =>
    cases as with
    | nil => exact p1.elim
    | cons a as =>
      cases bs' with
      | nil => exact p2.elim
      | cons b' bs' =>
        unfold segment segmentFrom at l1 l2
        obtain ⟨c, e1, l1⟩ := Res.bind_eq_ok.1 l1
        obtain ⟨c', e2, l2⟩ := Res.bind_eq_ok.1 l2
        by_cases t : c.truthy = true
        · by_cases t' : c'.truthy = true
          · rw [if_pos t] at l1
            rw [if_pos t'] at l2
            obtain ⟨cs, f1, l1⟩ := Res.bind_eq_ok.1 l1
            obtain ⟨cs', f2, l2⟩ := Res.bind_eq_ok.1 l2
            cases l1
            cases l2
            have k := hb b (by simp)
            have k' := hb' b' (by simp)
            have n0 : ¬ uadd 0 4 < b.x := by
              intro hn
              exact g0 ⟨b, rfl, by rw [show uadd 0 4 = 4 from rfl] at hn; simpa [endBefore] using hn⟩
            have n0' : uadd 0 4 < b'.x := by
              obtain ⟨d, e, hd⟩ := g0'
              cases e
              rw [show uadd 0 4 = 4 from rfl]
              simpa [endBefore] using hd
            have hs : i'.section b'.x b'.y b'.bounds = i.section b.x b.y b.bounds := by rw [p1.1, p2.1]
            have hin : InStep6 i i' (b.x + b.w) (b'.x + b'.w) bs bs' := by
              refine inStep6_of p1.2 p2.2 ?_
              intro k d d' hd hd'
              have ef : ∀ (c : Box) (cs : List Box), endFrom (c.x + c.w) cs k = endBefore (c :: cs) (k + 1) := by
                intro c cs
                cases k <;> rfl
              rw [ef, ef]
              have := sp (k + 1) (by omega)
              unfold Gap at this
              rw [List.getElem?_cons_succ, List.getElem?_cons_succ, hd, hd'] at this
              simpa using this
            have key : lineLoop6 compute i' (i'.bounds.w + 1) 0 ⟨[], [], [], [], []⟩ =
                lineLoop6 compute i (i.bounds.w + 1) 0 ⟨[], [], [[[32]]] ++ [], [], []⟩ := by
              rw [lineLoop6_first compute e1 t, lineLoop6_first compute e2 t', letterStep6_gap compute hs n0' n0]
              refine res_bind_congr fun r => ?_
              rw [uadd_eq (by omega)] at f1 f2 ⊢
              rw [uadd_eq (by omega)]
              exact lineLoop6_same compute _ _ _ _ bs bs' r f1 f2 hin (by omega) (by omega) (fun c hc => hb c (by simp [hc]))
                (fun c hc => hb' c (by simp [hc]))
            unfold extract6
            rw [key]
            have := lineLoop6_amb compute i [[[32]]] (i.bounds.w + 1) 0 ⟨[], [], [], [], []⟩
            dsimp only at this
            rw [this, Res.bind_assoc]
            refine res_bind_congr fun r => ?_
            rw [Res.ok_bind]
            dsimp only [List.singleton_append]
            rw [text6_front]
          · rw [if_neg t'] at l2
            cases l2
        · rw [if_neg t] at l1
          cases l1

theorem Spec.SameLetters.symm {i i' : Image} {bs bs' : List Box} {as : List Image} (h : SameLetters i i' bs bs' as) :
    SameLetters i' i bs' bs as :=
  ⟨h.letters', h.letters, h.pictures', h.pictures, fun k hk => (h.spaces k hk).symm⟩

/-- Two lines with the same letters and spaces. -/
theorem extract6_same (compute : Image → Image → Res Letter6) (E : List FNode) {i i' : Image} {bs bs' : List Box} {as : List Image}
    (h : SameLetters i i' bs bs' as) (hb : ∀ b ∈ bs, b.x + b.w + 4 < W32) (hb' : ∀ b ∈ bs', b.x + b.w + 4 < W32) :
    extract6 compute E i' = extract6 compute E i := by
  have hW : W32 = 4294967296 := rfl
  by_cases hg : Gap bs' 0 ↔ Gap bs 0
  · have hin : InStep6 i i' 0 0 bs bs' := by
      refine inStep6_of h.pictures h.pictures' ?_
      intro k d d' hd hd'
      rw [endFrom_zero, endFrom_zero]
      have : Gap bs' k ↔ Gap bs k := by
        cases k with
        | zero => exact hg
        | succ k => exact h.spaces _ (by omega)
      unfold Gap at this
      rw [hd, hd'] at this
      simpa using this
    unfold extract6
    rw [lineLoop6_same compute _ _ 0 0 bs bs' _ h.letters h.letters' hin (by omega) (by omega) hb hb']
  · by_cases g : Gap bs 0
    · have g' : ¬ Gap bs' 0 := fun k => hg (iff_of_true k g)
      exact (extract6_front compute E h.symm hb' hb g' g).symm
    · have g' : Gap bs' 0 := Decidable.byContradiction fun k => hg (iff_of_false k g)
      exact extract6_front compute E h hb hb' g g'

/-- Without the spaces. -/
theorem lineLoop6_unspaced (compute : Image → Image → Res Letter6) {i i' : Image} :
    ∀ (fuel fuel' x x' : Nat) (bs bs' : List Box) (as : List Image) (l l' r r' : Line6), segmentFrom i fuel x = .ok bs →
      segmentFrom i' fuel' x' = .ok bs' → Pictures i bs as → Pictures i' bs' as → unspaced l' = unspaced l →
      lineLoop6 compute i fuel x l = .ok r → lineLoop6 compute i' fuel' x' l' = .ok r' → unspaced r' = unspaced r
  | 0, _, _, _, _, _, _, _, _, _, _, h, _, _, _, _, _, _ => by simp [segmentFrom] at h
  | _ + 1, 0, _, _, _, _, _, _, _, _, _, _, h, _, _, _, _, _ => by simp [segmentFrom] at h
  | fuel + 1, fuel' + 1, x, x', bs, bs', as, l, l', r, r', h1, h2, p1, p2, hl, hr, hr' => by
    unfold segmentFrom at h1 h2
    obtain ⟨b, e1, h1⟩ := Res.bind_eq_ok.1 h1
    obtain ⟨b', e2, h2⟩ := Res.bind_eq_ok.1 h2
    unfold lineLoop6 at hr hr'
    rw [e1, Res.ok_bind] at hr
    rw [e2, Res.ok_bind] at hr'
    by_cases t : b.truthy = true
    · rw [if_pos t] at h1 hr
      obtain ⟨cs, f1, h1⟩ := Res.bind_eq_ok.1 h1
      cases h1
      cases as with
      | nil => exact p1.elim
      | cons a as =>
        by_cases t' : b'.truthy = true
        · rw [if_pos t'] at h2 hr'
          obtain ⟨cs', f2, h2⟩ := Res.bind_eq_ok.1 h2
          cases h2
          obtain ⟨m, em, hr⟩ := Res.bind_eq_ok.1 hr
          obtain ⟨m', em', hr'⟩ := Res.bind_eq_ok.1 hr'
          have := letterStep6_unspaced compute (x := x) (x' := x') (b := b) (b' := b') (by rw [p1.1, p2.1]) hl
          rw [em, em', Res.ok_bind, Res.ok_bind, Res.ok.injEq] at this
          exact lineLoop6_unspaced compute fuel fuel' _ _ cs cs' as m m' r r' f1 f2 p1.2 p2.2 this hr hr'
        · rw [if_neg t'] at h2
          cases h2
          exact p2.elim
    · rw [if_neg t] at h1 hr
      cases h1
      cases as with
      | cons a as => exact p1.elim
      | nil =>
        by_cases t' : b'.truthy = true
        · rw [if_pos t'] at h2
          obtain ⟨cs', f2, h2⟩ := Res.bind_eq_ok.1 h2
          cases h2
          exact p2.elim
        · rw [if_neg t'] at hr'
          cases hr
          cases hr'
          exact hl

end Ppocr

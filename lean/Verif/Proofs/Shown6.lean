import Verif.Spec.ByComparison
import Verif.Proofs.Order6

/-! # Helper lemmas: what `extract_text6` makes of a letter with a `std::sort` that goes by its comparisons -/

namespace Ppocr
open Spec Props

/-! ## The insertion sort -/

theorem insertBy_map {α β : Type} (f : α → β) {le : α → α → Bool} {le' : β → β → Bool} (h : ∀ a b, le' (f a) (f b) = le a b) (a : α) :
    ∀ l : List α, insertBy le' (f a) (l.map f) = (insertBy le a l).map f
  | [] => rfl
  | b :: l => by
    rw [List.map_cons, insertBy, insertBy, h, insertBy_map f h a l]
    split <;> rfl

theorem sortBy_map {α β : Type} (f : α → β) {le : α → α → Bool} {le' : β → β → Bool} (h : ∀ a b, le' (f a) (f b) = le a b) :
    ∀ l : List α, sortBy le' (l.map f) = (sortBy le l).map f
  | [] => rfl
  | a :: l => by rw [List.map_cons, sortBy, sortBy, sortBy_map f h l, insertBy_map f h]

theorem insertionSort_byComparison : ByComparison insertionSort :=
  fun f _ _ l h => sortBy_map f (fun a b => by rw [h]) l

/-! ## Lists in order -/

theorem sorted_ext {α : Type} {R : α → α → Prop} (irr : ∀ a, ¬ R a a) (tr : ∀ a b c, R a b → R b c → R a c) :
    ∀ {l m : List α}, l.Pairwise R → m.Pairwise R → (∀ x, x ∈ l ↔ x ∈ m) → l = m
  | [], [], _, _, _ => rfl
  | [], b :: m, _, _, h => absurd ((h b).2 (by simp)) (by simp)
  | a :: l, [], _, _, h => absurd ((h a).1 (by simp)) (by simp)
  | a :: l, b :: m, hl, hm, h => by
    rw [List.pairwise_cons] at hl hm
    have hab : a = b := by
      rcases List.mem_cons.1 ((h a).1 (by simp)) with e | ha
      · exact e
      · rcases List.mem_cons.1 ((h b).2 (by simp)) with e | hb
        · exact e.symm
        · exact absurd (tr _ _ _ (hl.1 b hb) (hm.1 a ha)) (irr a)
    subst hab
    rw [sorted_ext irr tr hl.2 hm.2 fun x => ?_]
    constructor
    · intro hx
      rcases List.mem_cons.1 ((h x).1 (by simp [hx])) with e | e
      · subst e; exact absurd (hl.1 x hx) (irr x)
      · exact e
    · intro hx
      rcases List.mem_cons.1 ((h x).2 (by simp [hx])) with e | e
      · subst e; exact absurd (hm.1 x hx) (irr x)
      · exact e

/-- `std::unique` by a key on a list in the order of the keys leaves each key once. -/
theorem uniqueFrom_strict {α κ : Type} [DecidableEq κ] {eq : α → α → Res Bool} {f : α → κ} {Lt : κ → κ → Prop}
    (tot : ∀ a b, Lt a b ∨ a = b ∨ Lt b a) :
    ∀ (l : List α) (a : α) (r : List α), (∀ x ∈ a :: l, ∀ y ∈ a :: l, eq x y = .ok (decide (f x = f y))) →
      (a :: l).Pairwise (fun y x => ¬ Lt (f x) (f y)) → uniqueFrom eq a l = .ok r → r.Pairwise (fun x y => Lt (f x) (f y)) ∧ r.Sublist (a :: l)
  | [], a, r, _, _, h => by
    cases h
    exact ⟨by simp, List.Sublist.refl _⟩
  | b :: l, a, r, he, hp, h => by
    rw [uniqueFrom, he a (by simp) b (by simp), Res.ok_bind] at h
    by_cases e : f a = f b
    · rw [if_pos (by simpa using e)] at h
      have hs : (a :: l).Sublist (a :: b :: l) := List.Sublist.cons_cons a (List.sublist_cons_self b l)
      obtain ⟨h1, h2⟩ := uniqueFrom_strict tot l a r (fun x hx y hy => he x (hs.subset hx) y (hs.subset hy)) (hp.sublist hs) h
      exact ⟨h1, h2.trans hs⟩
    · rw [if_neg (by simpa using e)] at h
      obtain ⟨r', h', hr⟩ := Res.bind_eq_ok.1 h
      cases hr
      obtain ⟨h1, h2⟩ := uniqueFrom_strict tot l b r' (fun x hx y hy => he x (List.mem_cons_of_mem _ hx) y (List.mem_cons_of_mem _ hy)) hp.of_cons h'
      refine ⟨List.pairwise_cons.2 ⟨?_, h1⟩, h2.cons_cons a⟩
      intro y hy
      have hy := h2.subset hy
      rw [List.pairwise_cons] at hp
      have hay := hp.1 y hy
      rcases tot (f a) (f y) with h3 | h3 | h3
      · exact h3
      · exfalso
        rcases List.mem_cons.1 hy with rfl | hy
        · exact e h3
        · have hab := hp.1 b (by simp)
          have hby := List.rel_of_pairwise_cons hp.2 hy
          rcases tot (f a) (f b) with h4 | h4 | h4
          · exact hby (h3 ▸ h4)
          · exact e h4
          · exact hab h4
      · exact absurd h3 hay

/-! ## The candidates in order -/

/-- The candidates that match in front. -/
def flagLt (a b : Words × Bool) : Bool := a.2 && !b.2

theorem flagLt_weak : StrictWeak flagLt := by
  refine ⟨?_, ?_, ?_⟩ <;> unfold flagLt
  · rintro ⟨_, a⟩; cases a <;> rfl
  · rintro ⟨_, a⟩ ⟨_, b⟩ ⟨_, c⟩; cases a <;> cases b <;> cases c <;> simp
  · rintro ⟨_, a⟩ ⟨_, b⟩ ⟨_, c⟩; cases a <;> cases b <;> cases c <;> simp

/-- The lists of words of `A` in order, each with whether `B` holds of it. -/
structure Listing (A B : Words → Prop) (vs : List (Words × Bool)) : Prop where
  up : vs.Pairwise fun a b => WordsLt a.1 b.1
  mem : ∀ v b, (v, b) ∈ vs ↔ A v ∧ (b = true ↔ B v)

theorem Listing.unique {A B A' B' : Words → Prop} {vs vs' : List (Words × Bool)} (h : Listing A B vs) (h' : Listing A' B' vs')
    (hA : ∀ v, A v ↔ A' v) (hB : ∀ v, A v → (B v ↔ B' v)) : vs = vs' := by
  refine sorted_ext (R := fun a b : Words × Bool => WordsLt a.1 b.1) (fun a => wordsLt_irrefl a.1) (fun _ _ _ => wordsLt_trans) h.up h'.up ?_
  rintro ⟨v, b⟩
  rw [h.mem, h'.mem, ← hA]
  constructor
  · rintro ⟨h1, h2⟩; exact ⟨h1, by rw [h2, hB v h1]⟩
  · rintro ⟨h1, h2⟩; exact ⟨h1, by rw [h2, hB v h1]⟩

/-- `l` is `vs` with the candidates that match in front. -/
structure FlagSorted (vs l : List (Words × Bool)) : Prop where
  perm : l.Perm vs
  sorted : l.Pairwise fun a b => flagLt b a = false

/-- An order `S` may give to `vs`. -/
structure FlagSortedBy (S : StdSort) (vs l : List (Words × Bool)) : Prop extends FlagSorted vs l where
  natural : ByComparison S → l = S.sort flagLt vs

theorem FlagSortedBy.nil (S : StdSort) : FlagSortedBy S [] [] :=
  ⟨⟨.refl _, .nil⟩, fun _ => (List.eq_nil_of_length_eq_zero (S.perm flagLt [] flagLt_weak).length_eq).symm⟩

theorem sortShow_listing (S : StdSort) {words : List Words} {ps : Probs6} {g : Nat → Bool} (hl : ∀ q ∈ ps, q.1 < words.length)
    (hc : ∀ q ∈ ps, q.2.Crisp (g q.1)) :
    ∃ r vs, sortShow S Prob6.less words ps = .ok r ∧ (∀ q ∈ r, q ∈ ps) ∧
      Listing (fun v => ∃ q ∈ ps, words.getD q.1 [] = v) (fun v => ∃ q ∈ ps, words.getD q.1 [] = v ∧ g q.1 = true) vs ∧
      FlagSortedBy S vs (r.map fun q => (words.getD q.1 [], g q.1)) := by
  unfold sortShow
  cases hps : ps with
  | nil => exact ⟨[], [], rfl, by simp, ⟨.nil, by simp⟩, FlagSortedBy.nil S⟩
  | cons p0 ps0 =>
    rw [if_neg (by simp), ← hps]
    obtain ⟨l, e1, hp1, hs1⟩ := sortRes_ok (S := S) (lt := ltShow Prob6.less words) (l := ps) (ShowLt words g)
      (fun a ha b hb => ltShow_ok (hl a ha) (hl b hb) (hc a ha) (hc b hb))
      (fun a _ => showLt_irr words g a) (fun _ _ _ _ _ _ h1 h2 => showLt_trans h1 h2)
      (by
        intro a _ b _ c _ h1 h2 h3 h4
        obtain ⟨x1, x2⟩ := showLt_inc h1 h2
        obtain ⟨y1, y2⟩ := showLt_inc h3 h4
        constructor
        · rintro (h | ⟨_, h5, h6⟩)
          · rw [x1, y1] at h; exact wordsLt_irrefl _ h
          · rw [x2, y2, h6] at h5; cases h5
        · rintro (h | ⟨_, h5, h6⟩)
          · rw [x1, y1] at h; exact wordsLt_irrefl _ h
          · rw [x2, y2, h5] at h6; cases h6)
    obtain ⟨u, e2, hu, hup, hcov⟩ : ∃ u, uniqueBy (fun a b : Nat × Prob6 => do
          let v1 ← rd words a.1
          let v2 ← rd words b.1
          return decide (v1 = v2)) l = .ok u ∧ u.Sublist l ∧ u.Pairwise (fun x y => WordsLt (words.getD x.1 []) (words.getD y.1 [])) ∧
          ∀ x ∈ l, ∃ y ∈ u, words.getD y.1 [] = words.getD x.1 [] ∧ ¬ ShowLt words g x y := by
      cases l with
      | nil => exact ⟨[], rfl, List.Sublist.refl _, .nil, by simp⟩
      | cons a l =>
        have heq : ∀ x ∈ a :: l, ∀ y ∈ a :: l, (fun a b : Nat × Prob6 => do
            let v1 ← rd words a.1
            let v2 ← rd words b.1
            return decide (v1 = v2)) x y = Res.ok (decide (words.getD x.1 [] = words.getD y.1 [])) := by
          intro x hx y hy
          have hx' := hl x (hp1.mem_iff.1 hx)
          have hy' := hl y (hp1.mem_iff.1 hy)
          simp only []
          rw [rd_of_lt hx', Res.ok_bind, rd_of_lt hy', Res.ok_bind, List.getD_eq_getElem?_getD, List.getD_eq_getElem?_getD,
            List.getElem?_eq_getElem hx', List.getElem?_eq_getElem hy']
          rfl
        obtain ⟨u, e, _, h1, h2⟩ := uniqueFrom_key (κ := Words) (eq := fun a b : Nat × Prob6 => do
          let v1 ← rd words a.1
          let v2 ← rd words b.1
          return decide (v1 = v2)) (f := fun q => words.getD q.1 []) (Q := fun y x => ¬ ShowLt words g x y)
          (fun a => showLt_irr words g a) l a heq hs1
        refine ⟨u, e, h1, ?_, h2⟩
        exact (uniqueFrom_strict (Lt := WordsLt) wordsLt_total l a u heq (hs1.imp fun h h' => h (.inl h')) e).1
    have hum : ∀ q ∈ u, q ∈ ps := fun q hq => hp1.mem_iff.1 (hu.mem hq)
    refine ⟨(S.sort (fun a b : { x // x ∈ u } => (Res.ok (b.1.2.less a.1.2)).isTrue) u.attach).map Subtype.val,
      u.map (fun q => (words.getD q.1 [], g q.1)), ?_, ?_, ⟨?_, ?_⟩, ?_⟩
    · rw [e1, Res.ok_bind, e2, Res.ok_bind]
      unfold sortRes
      rw [if_pos (by simp [Res.isOk])]
    · intro q hq
      obtain ⟨x, _, rfl⟩ := List.mem_map.1 hq
      exact hum x.1 x.2
    · rw [List.pairwise_map]
      exact hup
    · intro v b
      have hmax : ∀ x ∈ ps, ∀ y ∈ u, words.getD y.1 [] = words.getD x.1 [] → g x.1 = true → g y.1 = true := by
        intro x hx y hy e hg
        obtain ⟨z, hz, z1, z2⟩ := hcov x (hp1.mem_iff.2 hx)
        have hzy : z = y := by
          have hne : ∀ (a b : Nat × Prob6), a ∈ u → b ∈ u → words.getD a.1 [] = words.getD b.1 [] → a = b := by
            intro a b ha hb hab
            obtain ⟨k, hk, rfl⟩ := List.getElem_of_mem ha
            obtain ⟨m, hm, rfl⟩ := List.getElem_of_mem hb
            rcases Nat.lt_trichotomy k m with h | h | h
            · have := List.pairwise_iff_getElem.1 hup k m hk hm h
              rw [hab] at this
              exact absurd this (wordsLt_irrefl _)
            · subst h; rfl
            · have := List.pairwise_iff_getElem.1 hup m k hm hk h
              rw [hab] at this
              exact absurd this (wordsLt_irrefl _)
          exact hne z y hz hy (z1.trans e.symm)
        subst hzy
        cases hy' : g z.1 with
        | true => rfl
        | false => exact absurd (.inr ⟨z1.symm, hg, hy'⟩) z2
      simp only [List.mem_map, Prod.mk.injEq]
      constructor
      · rintro ⟨q, hq, rfl, rfl⟩
        refine ⟨⟨q, hum q hq, rfl⟩, fun h => ⟨q, hum q hq, rfl, h⟩, ?_⟩
        rintro ⟨x, hx, e, hg⟩
        exact hmax x hx q hq e.symm hg
      · rintro ⟨⟨x, hx, rfl⟩, hb⟩
        obtain ⟨y, hy, h1, _⟩ := hcov x (hp1.mem_iff.2 hx)
        refine ⟨y, hy, h1, ?_⟩
        rw [Bool.eq_iff_iff, hb]
        constructor
        · intro hg
          exact ⟨y, hum y hy, h1, hg⟩
        · rintro ⟨z, hz, e, hg⟩
          exact hmax z hz y hy (h1.trans e.symm) hg
    · have hm : u.map (fun q => (words.getD q.1 [], g q.1)) = u.attach.map (fun q => (words.getD q.1.1 [], g q.1.1)) := by
        have := List.map_map (l := u.attach) (g := fun q : Nat × Prob6 => (words.getD q.1 [], g q.1)) (f := Subtype.val)
        rw [List.attach_map_subtype_val] at this
        exact this
      have hlt : ∀ a b : { x // x ∈ u }, flagLt (words.getD a.1.1 [], g a.1.1) (words.getD b.1.1 [], g b.1.1) = b.1.2.less a.1.2 := by
        intro a b
        rw [less_crisp (hc b.1 (hum b.1 b.2)) (hc a.1 (hum a.1 a.2)), Bool.and_comm]
        rfl
      have hw : StrictWeak fun a b : { x // x ∈ u } => (Res.ok (b.1.2.less a.1.2)).isTrue := by
        have : (fun a b : { x // x ∈ u } => (Res.ok (b.1.2.less a.1.2)).isTrue) =
            fun a b => flagLt (words.getD a.1.1 [], g a.1.1) (words.getD b.1.1 [], g b.1.1) := by
          funext a b
          rw [hlt]
          rfl
        rw [this]
        exact ⟨fun _ => flagLt_weak.irrefl _, fun _ _ _ => flagLt_weak.trans _ _ _, fun _ _ _ => flagLt_weak.incomp _ _ _⟩
      refine ⟨⟨?_, ?_⟩, ?_⟩
      · rw [hm, List.map_map]
        exact (S.perm _ _ hw).map _
      · rw [List.map_map, List.pairwise_map]
        refine (S.sorted _ _ hw).imp ?_
        intro a b h
        exact (hlt b a).trans h
      · intro hS
        rw [hm, hS (fun q : { x // x ∈ u } => (words.getD q.1.1 [], g q.1.1)) (fun a b => (Res.ok (b.1.2.less a.1.2)).isTrue) flagLt _ hlt,
          List.map_map]
        rfl

/-! ## The letter -/

/-- The reading of a letter: `near` are the words of the pictures near to it, `kept` those of the pictures kept, as sorted. -/
def letterFrom (near kept : List (Words × Bool)) : Letter6 :=
  match near with
  | [] => ⟨unknown6, unknown6, [], [unknown6]⟩
  | best :: rest =>
    let r1 := best.1.headD []
    if best.2 then
      let ws := ((best :: rest).filter fun q => q.2).flatMap fun q => q.1
      ⟨r1, r1, ws, ws⟩
    else
      match kept with
      | [] => ⟨r1, unknown6, [], [unknown6]⟩
      | first :: rest =>
        let ws := (first :: rest).flatMap fun q => q.1
        ⟨r1, first.1.headD [], ws, ws⟩

/-- The reading of the letter `a` if `Q` says how the candidates may be sorted. -/
def ReadBy (Q : List (Words × Bool) → List (Words × Bool) → Prop) (imgs : List Image) (ws : List Words) (a : Image) (o : Letter6) : Prop :=
  ∃ near kept ln lk, Listing (fun v => ∃ (j : Nat) (i : Image), imgs[j]? = some i ∧ Near6 i a ∧ ws[j]? = some v)
      (fun v => ∃ j, Match6 imgs a j ∧ ws[j]? = some v) near ∧
    ((∀ j, ¬ Match6 imgs a j) → Listing (fun v => ∃ j, Kept6 imgs ws a j ∧ ws[j]? = some v) (fun _ => False) kept) ∧
    Q near ln ∧ Q kept lk ∧ o = letterFrom ln lk

/-- The reading of the letter `a` with a `std::sort` that goes by its comparisons. -/
def Read6 (S : StdSort) (imgs : List Image) (ws : List Words) (a : Image) (o : Letter6) : Prop :=
  ReadBy (fun vs l => l = S.sort flagLt vs) imgs ws a o

theorem ReadBy.mono {Q Q' : List (Words × Bool) → List (Words × Bool) → Prop} {imgs : List Image} {ws : List Words} {a : Image} {o : Letter6}
    (h : ReadBy Q imgs ws a o) (hQ : ∀ vs l, Q vs l → Q' vs l) : ReadBy Q' imgs ws a o := by
  obtain ⟨near, kept, ln, lk, n, k, q1, q2, e⟩ := h
  exact ⟨near, kept, ln, lk, n, k, hQ _ _ q1, hQ _ _ q2, e⟩

/-- The first of the candidates matches if one of them does. -/
theorem FlagSorted.head {vs l : List (Words × Bool)} (h : FlagSorted vs l) {v : Words} (hv : (v, true) ∈ vs) : ∃ w r, l = (w, true) :: r := by
  cases l with
  | nil => exact absurd (h.perm.mem_iff.2 hv) (by simp)
  | cons best rest =>
    obtain ⟨w, b⟩ := best
    refine ⟨w, rest, ?_⟩
    rcases List.mem_cons.1 (h.perm.mem_iff.2 hv) with h1 | h1
    · rw [(Prod.mk.inj h1).2]
    · have := List.rel_of_pairwise_cons h.sorted h1
      unfold flagLt at this
      rw [show b = true by simpa using this]

theorem sort_ordered (S : StdSort) (vs : List (Words × Bool)) : FlagSorted vs (S.sort flagLt vs) :=
  ⟨S.perm flagLt vs flagLt_weak, S.sorted flagLt vs flagLt_weak⟩

/-- With a match the kept ones do not matter. -/
theorem letterFrom_match {w : Words} {r kept kept' : List (Words × Bool)} : letterFrom ((w, true) :: r) kept = letterFrom ((w, true) :: r) kept' := by
  simp [letterFrom]

theorem Read6.unique {S : StdSort} {imgs imgs' : List Image} {ws ws' : List Words} {a : Image} {o o' : Letter6}
    (h : Read6 S imgs ws a o) (h' : Read6 S imgs' ws' a o') (hl : ws.length = imgs.length)
    (hN : ∀ v, (∃ (j : Nat) (i : Image), imgs[j]? = some i ∧ Near6 i a ∧ ws[j]? = some v) ↔
      ∃ (j : Nat) (i : Image), imgs'[j]? = some i ∧ Near6 i a ∧ ws'[j]? = some v)
    (hM : ∀ v, (∃ j, Match6 imgs a j ∧ ws[j]? = some v) ↔ ∃ j, Match6 imgs' a j ∧ ws'[j]? = some v)
    (hX : (∃ j, Match6 imgs a j) ↔ ∃ j, Match6 imgs' a j)
    (hK : ∀ v, (∃ j, Kept6 imgs ws a j ∧ ws[j]? = some v) ↔ ∃ j, Kept6 imgs' ws' a j ∧ ws'[j]? = some v) : o = o' := by
  obtain ⟨near, kept, _, _, n, k, rfl, rfl, rfl⟩ := h
  obtain ⟨near', kept', _, _, n', k', rfl, rfl, rfl⟩ := h'
  have e := n.unique n' hN fun v _ => hM v
  subst e
  by_cases hm : ∃ j, Match6 imgs a j
  · obtain ⟨j, i, hi, hx⟩ := hm
    have hlt : j < ws.length := by rw [hl]; exact (List.getElem?_eq_some_iff.1 hi).1
    have hw := List.getElem?_eq_getElem hlt
    obtain ⟨w, r, e⟩ := (sort_ordered S near).head (v := ws[j]) ((n.mem _ _).2 ⟨⟨j, i, hi, exact_near hx, hw⟩, fun _ => ⟨j, ⟨i, hi, hx⟩, hw⟩,
      fun _ => rfl⟩)
    rw [e]
    exact letterFrom_match
  · rw [(k (not_exists.1 hm)).unique (k' (not_exists.1 (fun h => hm (hX.2 h)))) hK fun _ _ => Iff.rfl]

section
variable {imgs : List Image} {d : Datas} {ws : List Words} {t : Tab6}

theorem letter6_sorted (S : StdSort) (h : Ready6 imgs ws d t) {a r : Image} (ha : Sized a) (hr : a.rotate90 = .ok r)
    {o : Letter6} (ho : computeLetter6 S t a r = .ok o) : ReadBy (FlagSortedBy S) imgs ws a o := by
  have hv := val6_ok ha (ha.rotated hr)
  obtain ⟨ps, eps, _, hmem, hcr⟩ := candidates6_ok (img := a) (img90 := r) h.built h.cols h.len (val := val6 a r) (by
    intro s hs
    rw [toolLoad_eq]
    exact hv s hs)
  have hwl : t.words.length = imgs.length := by rw [h.built.words, h.len]
  have hps : ∀ q ∈ ps, q.1 < imgs.length := fun q hq => ((hmem q.1).1 (List.mem_map.2 ⟨q, hq, rfl⟩)).1
  have hnear : ∀ q ∈ ps, ∃ i, imgs[q.1]? = some i ∧ Near6 i a := by
    intro q hq
    have hlt := hps q hq
    exact ⟨_, List.getElem?_eq_getElem hlt, (near6_iff h ha hr (List.getElem?_eq_getElem hlt)).1
      ((hmem q.1).1 (List.mem_map.2 ⟨q, hq, rfl⟩)).2⟩
  have hnear' : ∀ j i, imgs[j]? = some i → Near6 i a → ∃ q ∈ ps, q.1 = j := by
    intro j i hj hn
    have hlt := (List.getElem?_eq_some_iff.1 hj).1
    obtain ⟨q, hq, e⟩ := List.mem_map.1 ((hmem j).2 ⟨hlt, (near6_iff h ha hr hj).2 hn⟩)
    exact ⟨q, hq, e⟩
  have hword : ∀ j v, ws[j]? = some v ↔ j < imgs.length ∧ t.words.getD j [] = v := by
    intro j v
    rw [h.built.words, List.getD_eq_getElem?_getD]
    constructor
    · intro e
      have := (List.getElem?_eq_some_iff.1 e).1
      rw [h.len] at this
      exact ⟨this, by rw [e]; rfl⟩
    · rintro ⟨h1, h2⟩
      have h1' : j < ws.length := by rw [h.len]; exact h1
      rw [List.getElem?_eq_getElem h1'] at h2 ⊢
      exact congrArg some h2
  have hne : [] ∉ t.words := by rw [h.built.words]; exact h.ne
  have hmatch : ∀ k, Match6 imgs a k ↔ k < imgs.length ∧ simpleStrats.all (same6 d (val6 a r) k) = true := by
    intro k
    constructor
    · rintro ⟨i, hk, he⟩
      exact ⟨(List.getElem?_eq_some_iff.1 hk).1, (match_iff h ha hr hk).2 he⟩
    · rintro ⟨hk, he⟩
      exact ⟨_, List.getElem?_eq_getElem hk, (match_iff h ha hr (List.getElem?_eq_getElem hk)).1 he⟩
  have hmps : ∀ k, Match6 imgs a k → ∃ q ∈ ps, q.1 = k := by
    rintro k ⟨i, hk, he⟩
    exact hnear' k i hk (exact_near he)
  obtain ⟨tmp, near, etmp, hsub, hlist, hmap⟩ := sortShow_listing S (words := t.words) (ps := ps)
    (g := fun j => simpleStrats.all (same6 d (val6 a r) j)) (fun q hq => by rw [hwl]; exact hps q hq) hcr
  have hN : Listing (fun v => ∃ (j : Nat) (i : Image), imgs[j]? = some i ∧ Near6 i a ∧ ws[j]? = some v)
      (fun v => ∃ j, Match6 imgs a j ∧ ws[j]? = some v) near := by
    have e1 : (fun v => ∃ (j : Nat) (i : Image), imgs[j]? = some i ∧ Near6 i a ∧ ws[j]? = some v) =
        fun v => ∃ q ∈ ps, t.words.getD q.1 [] = v := by
      funext v
      refine propext ⟨?_, ?_⟩
      · rintro ⟨j, i, h1, h2, h3⟩
        obtain ⟨q, hq, rfl⟩ := hnear' j i h1 h2
        exact ⟨q, hq, ((hword _ _).1 h3).2⟩
      · rintro ⟨q, hq, e⟩
        obtain ⟨i, h1, h2⟩ := hnear q hq
        exact ⟨q.1, i, h1, h2, (hword _ _).2 ⟨hps q hq, e⟩⟩
    have e2 : (fun v => ∃ j, Match6 imgs a j ∧ ws[j]? = some v) =
        fun v => ∃ q ∈ ps, t.words.getD q.1 [] = v ∧ simpleStrats.all (same6 d (val6 a r) q.1) = true := by
      funext v
      refine propext ⟨?_, ?_⟩
      · rintro ⟨j, h1, h3⟩
        obtain ⟨q, hq, rfl⟩ := hmps j h1
        exact ⟨q, hq, ((hword _ _).1 h3).2, ((hmatch _).1 h1).2⟩
      · rintro ⟨q, hq, e, he⟩
        exact ⟨q.1, (hmatch _).2 ⟨hps q hq, he⟩, (hword _ _).2 ⟨hps q hq, e⟩⟩
    rw [e1, e2]
    exact hlist
  have hsort : tmp.Pairwise fun a' b => ¬ (simpleStrats.all (same6 d (val6 a r) a'.1) = false ∧
      simpleStrats.all (same6 d (val6 a r) b.1) = true) := by
    have := hmap.sorted
    rw [List.pairwise_map] at this
    refine this.imp ?_
    rintro x y hxy ⟨h1, h2⟩
    simp [flagLt, h1, h2] at hxy
  have hhead : ∀ {p : Nat × Prob6} {w : List Nat}, (t.words.getD p.1 []).head? = some w → (t.words.getD p.1 []).headD [] = w := by
    intro p w hw
    cases e : t.words.getD p.1 [] with
    | nil => rw [e] at hw; cases hw
    | cons x l => rw [e] at hw; cases hw; rfl
  unfold computeLetter6 at ho
  rw [eps, Res.ok_bind, etmp, Res.ok_bind] at ho
  cases tmp with
  | nil =>
    cases ho
    have hps0 : ∀ q, q ∉ ps := by
      intro q hq
      have : near = [] := by
        have := hmap.perm.length_eq
        exact List.eq_nil_of_length_eq_zero this.symm
      subst this
      obtain ⟨v, b, hb⟩ : ∃ v b, (v, b) ∈ ([] : List (Words × Bool)) := by
        cases hx : (simpleStrats.all (same6 d (val6 a r) q.1)) with
        | true => exact ⟨_, true, (hlist.mem (t.words.getD q.1 []) true).2 ⟨⟨q, hq, rfl⟩, fun _ => ⟨q, hq, rfl, hx⟩, fun _ => rfl⟩⟩
        | false =>
          by_cases hy : ∃ q' ∈ ps, t.words.getD q'.1 [] = t.words.getD q.1 [] ∧ simpleStrats.all (same6 d (val6 a r) q'.1) = true
          · exact ⟨_, true, (hlist.mem (t.words.getD q.1 []) true).2 ⟨⟨q, hq, rfl⟩, fun _ => hy, fun _ => rfl⟩⟩
          · exact ⟨_, false, (hlist.mem (t.words.getD q.1 []) false).2 ⟨⟨q, hq, rfl⟩, fun h => (by cases h), fun h => absurd h hy⟩⟩
      cases hb
    refine ⟨near, [], [], [], hN, ?_, hmap, FlagSortedBy.nil S, rfl⟩
    intro _
    refine ⟨.nil, ?_⟩
    intro v b
    constructor
    · intro h; cases h
    · rintro ⟨⟨j, ⟨⟨i, hi, hn, _⟩, _⟩, _⟩, _⟩
      obtain ⟨q, hq, _⟩ := hnear' j i hi hn
      exact absurd hq (hps0 q)
  | cons best rest =>
    have hbest : best ∈ ps := hsub best (by simp)
    have hbl : best.1 < t.words.length := by rw [hwl]; exact hps best hbest
    obtain ⟨r1, er1, hr1⟩ := getWord_ok hne hbl
    simp only [] at ho
    rw [er1, Res.ok_bind, less_one (hcr best hbest), Bool.not_not] at ho
    have hr1' := hhead hr1
    cases hb : simpleStrats.all (same6 d (val6 a r) best.1) with
    | true =>
      rw [hb, if_pos rfl] at ho
      have hg := gather6_ok (words := t.words) (stop := fun p => p.less ⟨1, 1⟩)
        (sb := fun j => !simpleStrats.all (same6 d (val6 a r) j)) (best :: rest)
        (fun q hq => by rw [hwl]; exact hps q (hsub q hq)) (fun q hq => less_one (hcr q (hsub q hq)))
        (hsort.imp fun {x y} hxy h1 => by
          cases hy : simpleStrats.all (same6 d (val6 a r) y.1) with
          | true => exact absurd ⟨by simpa using h1, hy⟩ hxy
          | false => rfl)
      simp only [Bool.not_not] at hg
      rw [hg, Res.ok_bind] at ho
      cases ho
      refine ⟨near, [], _, [], hN, fun hno => absurd ((hmatch best.1).2 ⟨hps best hbest, hb⟩) (hno _), hmap, FlagSortedBy.nil S, ?_⟩
      unfold letterFrom
      rw [List.map_cons]
      simp only [hb, if_pos, hr1']
      have : (best :: rest).map (fun q => (t.words.getD q.1 [], simpleStrats.all (same6 d (val6 a r) q.1))) =
        (t.words.getD best.1 [], true) :: rest.map (fun q => (t.words.getD q.1 [], simpleStrats.all (same6 d (val6 a r) q.1))) := by
        rw [List.map_cons, hb]
      rw [← this, List.filter_map, List.flatMap_map]
      rfl
    | false =>
      rw [hb, if_neg (by simp)] at ho
      have hnomt : ∀ q ∈ ps, simpleStrats.all (same6 d (val6 a r) q.1) = false := by
        intro q hq
        cases hc : simpleStrats.all (same6 d (val6 a r) q.1) with
        | false => rfl
        | true =>
          exfalso
          have hin : (t.words.getD q.1 [], true) ∈ near := (hlist.mem _ _).2 ⟨⟨q, hq, rfl⟩, fun _ => ⟨q, hq, rfl, hc⟩, fun _ => rfl⟩
          rw [← hmap.perm.mem_iff] at hin
          obtain ⟨q', hq', e⟩ := List.mem_map.1 hin
          have e2 : simpleStrats.all (same6 d (val6 a r) q'.1) = true := congrArg Prod.snd e
          rcases List.mem_cons.1 hq' with rfl | hq'
          · rw [hb] at e2; cases e2
          · exact List.rel_of_pairwise_cons hsort hq' ⟨hb, e2⟩
      have hnom : ∀ k, ¬ Match6 imgs a k := by
        intro k hk
        obtain ⟨q, hq, rfl⟩ := hmps k hk
        have := ((hmatch _).1 hk).2
        rw [hnomt q hq] at this
        cases this
      obtain ⟨p1, e1, c1, m1⟩ := reduceComplex6_ok h.learnt h.sized ha hr hps
        (fun q hq => by have := hcr q hq; rw [hnomt q hq] at this; exact this)
      have hp1 : ∀ q ∈ p1, q.1 < imgs.length ∧ ∃ i, imgs[q.1]? = some i ∧ Near6 i a ∧ Bars6 i a := by
        intro q hq
        obtain ⟨hq1, i, hi, hb⟩ := (m1 q.1).1 (List.mem_map.2 ⟨q, hq, rfl⟩)
        obtain ⟨q0, hq0, e0⟩ := List.mem_map.1 hq1
        obtain ⟨i', hi', hn⟩ := hnear q0 hq0
        rw [e0, hi, Option.some.injEq] at hi'
        subst hi'
        exact ⟨(List.getElem?_eq_some_iff.1 hi).1, i, hi, hn, hb⟩
      rw [h.built.datas, e1, Res.ok_bind, reduceExclusive6_eq] at ho
      have hin : ∀ p ∈ p1, p.1 < t.byWords.length := fun p hp => by rw [byWords_len h.taught]; exact (hp1 p hp).1
      by_cases hst : ∃ p ∈ p1, Stuck t.byWords (exclusiveStrats.map d.strat) a r p.1
      · rw [reduceExclusive_stuck t.byWords (exclusiveStrats.map d.strat) (exclusive_loads ha) p1 hin ?_ hst, Res.ub_bind] at ho
        · cases ho
        · intro l hl j hj
          obtain ⟨g, hg⟩ := List.getElem?_of_mem hl
          have hgl : g < imgs.length := by rw [← byWords_len h.taught]; exact (List.getElem?_eq_some_iff.1 hg).1
          have hj' : j ∈ t.byWords.getD g [] := by rw [List.getD_eq_getElem?_getD, hg]; exact hj
          obtain ⟨_, v, u, _, e, _⟩ := (twin_iff h.taught hgl j).1 hj'
          have hjl := (List.getElem?_eq_some_iff.1 e).1
          rw [h.len] at hjl
          exact (exclusive_run h.learnt ha hr (List.getElem?_eq_getElem hjl) (h.sized _ (List.getElem_mem hjl))).2.2
      · rw [reduceExclusive_ok t.byWords (exclusiveStrats.map d.strat) (exclusive_loads ha) p1 hin
          (fun p hp hs => hst ⟨p, hp, hs⟩), Res.ok_bind] at ho
        have hsubp : ∀ q ∈ p1.filter (fun p => wordKeep t.byWords (exclusiveStrats.map d.strat) a r p.1), q ∈ p1 :=
          fun q hq => (List.mem_filter.1 hq).1
        obtain ⟨fin, kept, efin, fsub, flist, fmap⟩ := sortShow_listing S (words := t.words)
          (ps := p1.filter fun p => wordKeep t.byWords (exclusiveStrats.map d.strat) a r p.1) (g := fun _ => false)
          (fun q hq => by rw [hwl]; exact (hp1 q (hsubp q hq)).1) (fun q hq => c1 q (hsubp q hq))
        have hkept : ∀ q ∈ p1, wordKeep t.byWords (exclusiveStrats.map d.strat) a r q.1 = true ↔ Kept6 imgs ws a q.1 := by
          intro q hq
          obtain ⟨hql, hib⟩ := hp1 q hq
          rw [(keep6 h.taught ha hr hql).2 fun hs => hst ⟨q, hq, hs⟩]
          unfold Kept6
          exact ⟨fun hk => ⟨hib, hk⟩, fun hk => hk.2⟩
        have hK : Listing (fun v => ∃ j, Kept6 imgs ws a j ∧ ws[j]? = some v) (fun _ => False) kept := by
          have e1 : (fun v => ∃ j, Kept6 imgs ws a j ∧ ws[j]? = some v) = fun v => ∃ q ∈ p1.filter fun p =>
              wordKeep t.byWords (exclusiveStrats.map d.strat) a r p.1, t.words.getD q.1 [] = v := by
            funext v
            refine propext ⟨?_, ?_⟩
            · rintro ⟨j, hk, hw⟩
              obtain ⟨i, hi, hn, hb⟩ := hk.1
              obtain ⟨q0, hq0, e0⟩ := hnear' j i hi hn
              obtain ⟨q1, hq1, eq1⟩ := List.mem_map.1 ((m1 j).2 ⟨List.mem_map.2 ⟨q0, hq0, e0⟩, i, hi, hb⟩)
              exact ⟨q1, List.mem_filter.2 ⟨hq1, (hkept q1 hq1).2 (by rw [eq1]; exact hk)⟩, by rw [eq1]; exact ((hword _ _).1 hw).2⟩
            · rintro ⟨q, hq, e⟩
              have := List.mem_filter.1 hq
              exact ⟨q.1, (hkept q this.1).1 this.2, (hword _ _).2 ⟨(hp1 q this.1).1, e⟩⟩
          refine ⟨flist.up, fun v b => ?_⟩
          rw [flist.mem, ← congrFun e1 v]
          simp
        rw [efin, Res.ok_bind] at ho
        refine ⟨near, kept, _, _, hN, fun _ => hK, hmap, fmap, ?_⟩
        unfold letterFrom
        rw [List.map_cons]
        simp only [hb, hr1', Bool.false_eq_true, if_false]
        cases fin with
        | nil => cases ho; rfl
        | cons first fin =>
          have hfin : ∀ q ∈ first :: fin, q ∈ p1 := fun q hq => hsubp q (fsub q hq)
          have hfl : first.1 < t.words.length := by rw [hwl]; exact (hp1 first (hfin first (by simp))).1
          obtain ⟨r2, er2, hr2⟩ := getWord_ok hne hfl
          have hg := gather6_ok (words := t.words) (stop := fun p => p.less first.2) (sb := fun _ => false) (first :: fin)
            (fun q hq => by rw [hwl]; exact (hp1 q (hfin q hq)).1)
            (fun q hq => by
              rw [less_crisp (c1 q (hfin q hq)) (c1 first (hfin first (by simp)))]
              rfl)
            (List.pairwise_of_forall (by simp))
          simp only [] at ho
          rw [hg, Res.ok_bind, er2, Res.ok_bind] at ho
          have hall : (first :: fin).filter (fun q => !(fun _ => false) q.1) = first :: fin := List.filter_eq_self.2 (by simp)
          rw [hall] at ho
          cases ho
          simp only [List.map_cons, hhead hr2]
          have : (first :: fin).map (fun q => (t.words.getD q.1 [], false)) = (t.words.getD first.1 [], false) :: fin.map
            (fun q => (t.words.getD q.1 [], false)) := rfl
          rw [← this, List.flatMap_map]

theorem letter6_read {S : StdSort} (hS : ByComparison S) (h : Ready6 imgs ws d t) {a r : Image} (ha : Sized a) (hr : a.rotate90 = .ok r)
    {o : Letter6} (ho : computeLetter6 S t a r = .ok o) : Read6 S imgs ws a o :=
  (letter6_sorted S h ha hr ho).mono fun _ _ q => q.natural hS

end

/-! ## Back to the order of the file -/

theorem Moved6.readBy {idx : List Nat} {imgs imgs' : List Image} {ws ws' : List Words} (m : Moved6 idx imgs ws imgs' ws')
    {Q : List (Words × Bool) → List (Words × Bool) → Prop} {a : Image} {o : Letter6} (h : ReadBy Q imgs' ws' a o) : ReadBy Q imgs ws a o := by
  obtain ⟨near, kept, ln, lk, n, k, e⟩ := h
  have hM : ∀ v, (∃ j, Match6 imgs' a j ∧ ws'[j]? = some v) ↔ ∃ j, Match6 imgs a j ∧ ws[j]? = some v := by
    intro v
    constructor
    · rintro ⟨j, h1, h2⟩
      obtain ⟨k, hk, _⟩ := m.to (lt_of_word m h2)
      exact ⟨k, (m.match hk).1 h1, by rw [← m.word _ _ hk]; exact h2⟩
    · rintro ⟨j, h1, h2⟩
      obtain ⟨k, hk⟩ := m.fro (lt_of_word' m h2)
      exact ⟨k, (m.match hk).2 h1, by rw [m.word _ _ hk]; exact h2⟩
  have hK : ∀ v, (∃ j, Kept6 imgs' ws' a j ∧ ws'[j]? = some v) ↔ ∃ j, Kept6 imgs ws a j ∧ ws[j]? = some v := by
    intro v
    constructor
    · rintro ⟨j, h1, h2⟩
      obtain ⟨k, hk, _⟩ := m.to (lt_of_word m h2)
      exact ⟨k, (m.kept hk).1 h1, by rw [← m.word _ _ hk]; exact h2⟩
    · rintro ⟨j, h1, h2⟩
      obtain ⟨k, hk⟩ := m.fro (lt_of_word' m h2)
      exact ⟨k, (m.kept hk).2 h1, by rw [m.word _ _ hk]; exact h2⟩
  have hN : ∀ v, (∃ (j : Nat) (i : Image), imgs'[j]? = some i ∧ Near6 i a ∧ ws'[j]? = some v) ↔
      ∃ (j : Nat) (i : Image), imgs[j]? = some i ∧ Near6 i a ∧ ws[j]? = some v := by
    intro v
    constructor
    · rintro ⟨j, i, h0, h1, h2⟩
      obtain ⟨k, hk, _⟩ := m.to (lt_of_word m h2)
      exact ⟨k, i, by rw [← m.img _ _ hk]; exact h0, h1, by rw [← m.word _ _ hk]; exact h2⟩
    · rintro ⟨j, i, h0, h1, h2⟩
      obtain ⟨k, hk⟩ := m.fro (lt_of_word' m h2)
      exact ⟨k, i, by rw [m.img _ _ hk]; exact h0, h1, by rw [m.word _ _ hk]; exact h2⟩
  refine ⟨near, kept, ln, lk, ⟨n.up, fun v b => ?_⟩, fun hno => ?_, e⟩
  · rw [n.mem, hN, hM]
  · have k := k fun j hj => by
      obtain ⟨j', h'⟩ := m.noMatch.1 ⟨j, hj⟩
      exact hno j' h'
    exact ⟨k.up, fun v b => by rw [k.mem, hK]⟩

theorem Moved6.read {idx : List Nat} {imgs imgs' : List Image} {ws ws' : List Words} (m : Moved6 idx imgs ws imgs' ws') {S : StdSort}
    {a : Image} {o : Letter6} (h : Read6 S imgs' ws' a o) : Read6 S imgs ws a o := m.readBy h

end Ppocr

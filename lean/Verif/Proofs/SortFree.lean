import Verif.Proofs.Setup
import Verif.Proofs.ExtractText
import Verif.Spec.SortFree

/-! # Lemmas for C72: what does not depend on the sorting algorithm -/

namespace Ppocr
open Spec Props

/-! ### The view ids -/

/-- Two orders of the glyphs by their words have the same words at each place. -/
theorem wordsOf_orders (glyphs : List (List View)) {σ τ : List Nat} (hp : σ.Perm τ)
    (hσ : σ.Pairwise fun i j => ltViews (glyphs.getD j []) (glyphs.getD i []) = false)
    (hτ : τ.Pairwise fun i j => ltViews (glyphs.getD j []) (glyphs.getD i []) = false) :
    σ.map (fun i => wordsOf (glyphs.getD i [])) = τ.map (fun i => wordsOf (glyphs.getD i [])) := by
  let le : List Nat → List Nat → Prop := fun a b =>
    ltViews (b.map fun w => ⟨w, 0⟩) (a.map fun w => ⟨w, 0⟩) = false
  have hle : ∀ a b : List View, le (wordsOf a) (wordsOf b) ↔ ltViews b a = false := by
    intro a b
    show ltViews _ _ = false ↔ _
    rw [ltViews_congr _ b _ a]
    · simp [wordsOf, Function.comp_def]
    · simp [wordsOf, Function.comp_def]
  refine List.Perm.eq_of_pairwise (le := le) ?_ ?_ ?_ (hp.map _)
  · intro a b ha hb h1 h2
    obtain ⟨x, _, rfl⟩ := List.mem_map.1 ha
    obtain ⟨y, _, rfl⟩ := List.mem_map.1 hb
    rw [hle] at h1 h2
    exact (ltViews_false_iff _ _).1 ⟨h2, h1⟩
  · rw [List.pairwise_map]
    exact hσ.imp fun h => (hle _ _).2 h
  · rw [List.pairwise_map]
    exact hτ.imp fun h => (hle _ _).2 h

/-- Two glyphs have the same id if the glyphs at their places in the order have the same words. -/
theorem viewsIndexes_place (S : StdSort) (glyphs : List (List View)) :
    ∃ σ : List Nat, σ.Perm (List.range glyphs.length) ∧
      (σ.Pairwise fun i j => ltViews (glyphs.getD j []) (glyphs.getD i []) = false) ∧
      ∀ i j, i < glyphs.length → j < glyphs.length →
        ((viewsIndexes S glyphs)[i]? = (viewsIndexes S glyphs)[j]? ↔
          wordsOf (glyphs.getD (σ.getD i 0) []) = wordsOf (glyphs.getD (σ.getD j 0) [])) := by
  obtain ⟨σ, hp, hσ, hl, h1, h2⟩ := viewsIndexes_sorted S glyphs
  refine ⟨σ, hp, hσ, ?_⟩
  have hσl : σ.length = glyphs.length := by rw [hp.length_eq, List.length_range]
  have hget : ∀ k, k < glyphs.length → σ[k]? = some (σ.getD k 0) := by
    intro k hk
    rw [List.getD_eq_getElem?_getD, List.getElem?_eq_getElem (by omega : k < σ.length)]
    rfl
  have key : ∀ k, k < glyphs.length → ∃ r', (viewsIndexes S glyphs)[k]? = some r' ∧
      wordsOf (glyphs.getD r' []) = wordsOf (glyphs.getD (σ.getD k 0) []) := fun k hk => h1 k _ (hget k hk)
  have g : ∀ a b, a < b → b < glyphs.length →
      ltViews (glyphs.getD (σ.getD b 0) []) (glyphs.getD (σ.getD a 0) []) = false := by
    intro a b hab hb
    have := List.pairwise_iff_getElem.1 hσ a b (by omega) (by omega) hab
    have ea := hget a (by omega)
    have eb := hget b hb
    rw [List.getElem?_eq_getElem (by omega), Option.some.injEq] at ea eb
    rw [← ea, ← eb]
    exact this
  have step : ∀ d i, i + d < glyphs.length →
      wordsOf (glyphs.getD (σ.getD i 0) []) = wordsOf (glyphs.getD (σ.getD (i + d) 0) []) →
      (viewsIndexes S glyphs)[i]? = (viewsIndexes S glyphs)[i + d]? := by
    intro d
    induction d with
    | zero => intro i _ _; rfl
    | succ d ih =>
      intro i hd e
      have e1 : wordsOf (glyphs.getD (σ.getD i 0) []) = wordsOf (glyphs.getD (σ.getD (i + d) 0) []) := by
        by_cases h0 : d = 0
        · rw [h0]; rfl
        · apply (ltViews_false_iff _ _).1
          refine ⟨?_, g _ _ (by omega) (by omega)⟩
          have := g (i + d) (i + (d + 1)) (by omega) hd
          rwa [ltViews_congr _ _ _ _ e.symm rfl] at this
      obtain ⟨r', a1, b1⟩ := key (i + d) (by omega)
      obtain ⟨r'', a2, b2⟩ := key (i + d + 1) (by omega)
      have := h2 (i + d) r' r'' a1 a2 (by rw [b1, b2, ← e1, e]; rfl)
      rw [ih i (by omega) e1, a1, ← Nat.add_assoc, a2, this]
  intro i j hi hj
  constructor
  · intro e
    obtain ⟨r, a1, b1⟩ := key i hi
    obtain ⟨r', a2, b2⟩ := key j hj
    rw [a1, a2, Option.some.injEq] at e
    rw [← b1, ← b2, e]
  · intro e
    by_cases h : i ≤ j
    · have := step (j - i) i (by omega) (by rwa [show i + (j - i) = j from by omega])
      rwa [show i + (j - i) = j from by omega] at this
    · have := step (i - j) j (by omega) (by rw [show j + (i - j) = i from by omega]; exact e.symm)
      rw [show j + (i - j) = i from by omega] at this
      exact this.symm

/-- Which glyphs share an id does not depend on the sort. -/
theorem viewsIndexes_classes (S S' : StdSort) (glyphs : List (List View)) (i j : Nat) (hi : i < glyphs.length)
    (hj : j < glyphs.length) :
    ((viewsIndexes S glyphs).getD i 0 = (viewsIndexes S glyphs).getD j 0 ↔
      (viewsIndexes S' glyphs).getD i 0 = (viewsIndexes S' glyphs).getD j 0) := by
  have hget : ∀ T : StdSort, (viewsIndexes T glyphs)[i]? = (viewsIndexes T glyphs)[j]? ↔
      (viewsIndexes T glyphs).getD i 0 = (viewsIndexes T glyphs).getD j 0 := by
    intro T
    obtain ⟨_, _, _, hl, _⟩ := viewsIndexes_sorted T glyphs
    rw [List.getD_eq_getElem?_getD, List.getD_eq_getElem?_getD, List.getElem?_eq_getElem (by omega : i < _),
      List.getElem?_eq_getElem (by omega : j < (viewsIndexes T glyphs).length)]
    simp
  rw [← hget S, ← hget S']
  obtain ⟨σ, hp, hσ, h1⟩ := viewsIndexes_place S glyphs
  obtain ⟨τ, hq, hτ, h2⟩ := viewsIndexes_place S' glyphs
  have e := wordsOf_orders glyphs (hp.trans hq.symm) hσ hτ
  have hk : ∀ k, k < glyphs.length →
      wordsOf (glyphs.getD (σ.getD k 0) []) = wordsOf (glyphs.getD (τ.getD k 0) []) := by
    intro k hk
    have l1 : k < σ.length := by rw [hp.length_eq, List.length_range]; exact hk
    have l2 : k < τ.length := by rw [hq.length_eq, List.length_range]; exact hk
    have := congrArg (fun l : List (List Nat) => l[k]?) e
    simp only [List.getElem?_map, List.getElem?_eq_getElem l1, List.getElem?_eq_getElem l2, Option.map_some,
      Option.some.injEq] at this
    rw [List.getD_eq_getElem?_getD (l := σ), List.getD_eq_getElem?_getD (l := τ), List.getElem?_eq_getElem l1, List.getElem?_eq_getElem l2]
    exact this
  rw [h1 i j hi hj, h2 i j hi hj, hk i hi, hk j hj]

/-! ### The best candidates -/

theorem distinct_eq {α β : Type} {k : α → β} {l : List α} (h : l.Pairwise fun a b => k a ≠ k b) {p q : α} (hp : p ∈ l)
    (hq : q ∈ l) (e : k p = k q) : p = q := by
  induction l with
  | nil => exact absurd hp (by simp)
  | cons a l ih =>
    obtain ⟨h1, h2⟩ := List.pairwise_cons.1 h
    rcases List.mem_cons.1 hp with rfl | hp
    · rcases List.mem_cons.1 hq with rfl | hq
      · rfl
      · exact absurd e (h1 q hq)
    · rcases List.mem_cons.1 hq with e' | hq
      · rw [e'] at e
        exact absurd e.symm (h1 p hp)
      · exact ih h2 hp hq

section
variable {P : Type} [LawfulDbl P]

/-- The best candidates of a class, for two numberings of the same classes. -/
theorem best_partner {ids ids' : List Nat} {U U' T T' : List (Nat × P)} (hU : ∀ p, p ∈ U ↔ p ∈ U')
    (hid : ∀ p ∈ U, ∀ q ∈ U, ids.getD p.1 0 = ids.getD q.1 0 ↔ ids'.getD p.1 0 = ids'.getD q.1 0)
    (hT : Best ids U T) (hT' : Best ids' U' T') (p : Nat × P) (hp : p ∈ T) :
    ∃ q ∈ T', ids.getD p.1 0 = ids.getD q.1 0 ∧ Dbl.le p.2 q.2 = true ∧ Dbl.le q.2 p.2 = true := by
  have hpU := hT.sub p hp
  obtain ⟨q, hq, e1, l1⟩ := hT'.cover p ((hU p).1 hpU)
  have hqU := (hU q).2 (hT'.sub q hq)
  have e2 := (hid p hpU q hqU).2 e1.symm
  obtain ⟨p', hp', e3, l2⟩ := hT.cover q hqU
  have := distinct_eq (k := fun p : Nat × P => ids.getD p.1 0) hT.distinct hp' hp (e3.trans e2.symm)
  subst this
  exact ⟨q, hq, e2, l1, l2⟩

/-- The best candidates above a limit are the same up to order, if the best of a class agree. -/
theorem best_perm {ids ids' : List Nat} {U U' T T' : List (Nat × P)} {β : Type} (f : Nat × P → β) (ok ok' : Nat × P → Bool)
    (hU : ∀ p, p ∈ U ↔ p ∈ U')
    (hid : ∀ p ∈ U, ∀ q ∈ U, ids.getD p.1 0 = ids.getD q.1 0 ↔ ids'.getD p.1 0 = ids'.getD q.1 0)
    (hT : Best ids U T) (hT' : Best ids' U' T')
    (hok : ∀ p ∈ T, ∀ q ∈ T', Dbl.le p.2 q.2 = true → Dbl.le q.2 p.2 = true → ok p = ok' q)
    (tie : ∀ p ∈ T, ∀ q ∈ T', ok p = true → ids.getD p.1 0 = ids.getD q.1 0 → Dbl.le p.2 q.2 = true →
      Dbl.le q.2 p.2 = true → f p = f q) :
    ((T.filter ok).map f).Perm ((T'.filter ok').map f) := by
  classical
  have hU' : ∀ p, p ∈ U' ↔ p ∈ U := fun p => (hU p).symm
  have hid' : ∀ p ∈ U', ∀ q ∈ U', ids'.getD p.1 0 = ids'.getD q.1 0 ↔ ids.getD p.1 0 = ids.getD q.1 0 :=
    fun p hp q hq => (hid p ((hU p).2 hp) q ((hU q).2 hq)).symm
  have hx : ∃ φ : Nat × P → Nat × P, ∀ p ∈ T, φ p ∈ T' ∧ ids.getD p.1 0 = ids.getD (φ p).1 0 ∧
      Dbl.le p.2 (φ p).2 = true ∧ Dbl.le (φ p).2 p.2 = true := by
    refine ⟨fun p => if h : p ∈ T then Classical.choose (best_partner hU hid hT hT' p h) else p, fun p hp => ?_⟩
    simp only [dif_pos hp]
    exact Classical.choose_spec (best_partner hU hid hT hT' p hp)
  obtain ⟨φ, hφ⟩ := hx
  have nd : T.Nodup := hT.distinct.imp fun h e => h (by rw [e])
  have nd' : T'.Nodup := hT'.distinct.imp fun h e => h (by rw [e])
  have hperm : ((T.filter ok).map φ).Perm (T'.filter ok') := by
    rw [List.perm_ext_iff_of_nodup]
    · intro q
      constructor
      · intro h
        obtain ⟨p, hp, rfl⟩ := List.mem_map.1 h
        obtain ⟨hp, hk⟩ := List.mem_filter.1 hp
        obtain ⟨h1, _, h3, h4⟩ := hφ p hp
        exact List.mem_filter.2 ⟨h1, by rw [← hok p hp _ h1 h3 h4]; exact hk⟩
      · intro h
        obtain ⟨hq, hk⟩ := List.mem_filter.1 h
        obtain ⟨p, hp, e, l1, l2⟩ := best_partner hU' hid' hT' hT q hq
        obtain ⟨h1, h2, _⟩ := hφ p hp
        have hpU := hT.sub p hp
        have hqU := (hU q).2 (hT'.sub q hq)
        have h1U := (hU _).2 (hT'.sub _ h1)
        have e2 := (hid p hpU _ h1U).1 h2
        have := distinct_eq (k := fun p : Nat × P => ids'.getD p.1 0) hT'.distinct h1 hq (e2.symm.trans e.symm)
        exact List.mem_map.2 ⟨p, List.mem_filter.2 ⟨hp, by rw [hok p hp q hq l2 l1]; exact hk⟩, this⟩
    · unfold List.Nodup
      rw [List.pairwise_map]
      refine ((nd.sublist List.filter_sublist).imp_of_mem ?_)
      intro p q hp hq hne e
      have hp := (List.mem_filter.1 hp).1
      have hq := (List.mem_filter.1 hq).1
      apply hne
      apply distinct_eq (k := fun p : Nat × P => ids.getD p.1 0) hT.distinct hp hq
      rw [(hφ p hp).2.1, (hφ q hq).2.1, e]
    · exact nd'.sublist List.filter_sublist
  have := hperm.map f
  rw [List.map_map] at this
  refine List.Perm.trans ?_ this
  rw [List.map_congr_left (g := f ∘ φ)]
  intro p hp
  obtain ⟨hp, hk⟩ := List.mem_filter.1 hp
  obtain ⟨h1, h2, h3, h4⟩ := hφ p hp
  exact tie p hp _ h1 hk h2 h3 h4

/-- They are the same in the same order, if candidates of equal probability agree. -/
theorem best_same {ids ids' : List Nat} {U U' T T' : List (Nat × P)} {β : Type} (f : Nat × P → β) (ok ok' : Nat × P → Bool)
    (hU : ∀ p, p ∈ U ↔ p ∈ U')
    (hid : ∀ p ∈ U, ∀ q ∈ U, ids.getD p.1 0 = ids.getD q.1 0 ↔ ids'.getD p.1 0 = ids'.getD q.1 0)
    (hT : Best ids U T) (hT' : Best ids' U' T')
    (hok : ∀ p ∈ T, ∀ q ∈ T', Dbl.le p.2 q.2 = true → Dbl.le q.2 p.2 = true → ok p = ok' q)
    (tie : ∀ p ∈ T, ∀ q ∈ T', ok p = true → ok' q = true → Dbl.le p.2 q.2 = true → Dbl.le q.2 p.2 = true → f p = f q) :
    (T.filter ok).map f = (T'.filter ok').map f := by
  let F : Nat × P → β × (P → Prop) := fun p => (f p, fun x => Dbl.le x p.2 = true ∧ Dbl.le p.2 x = true)
  have tieF : ∀ p ∈ T, ∀ q ∈ T', ok p = true → ok' q = true → Dbl.le p.2 q.2 = true → Dbl.le q.2 p.2 = true → F p = F q := by
    intro p hp q hq h1 h2 h3 h4
    refine Prod.ext (tie p hp q hq h1 h2 h3 h4) ?_
    funext x
    refine propext ⟨?_, ?_⟩
    · rintro ⟨a, b⟩
      exact ⟨LawfulDbl.trans _ _ _ a h3, LawfulDbl.trans _ _ _ h4 b⟩
    · rintro ⟨a, b⟩
      exact ⟨LawfulDbl.trans _ _ _ a h4, LawfulDbl.trans _ _ _ h3 b⟩
  let le : β × (P → Prop) → β × (P → Prop) → Prop := fun A B => ∃ a b, A.2 a ∧ B.2 b ∧ Dbl.le b a = true
  have hle : ∀ p q, le (F p) (F q) → Dbl.le q.2 p.2 = true := by
    rintro p q ⟨a, b, ⟨a1, a2⟩, ⟨b1, b2⟩, h⟩
    exact LawfulDbl.trans _ _ _ b2 (LawfulDbl.trans _ _ _ h a1)
  have hle' : ∀ p q, Dbl.le q.2 p.2 = true → le (F p) (F q) := fun p q h =>
    ⟨p.2, q.2, ⟨le_refl_P _, le_refl_P _⟩, ⟨le_refl_P _, le_refl_P _⟩, h⟩
  have e : (T.filter ok).map F = (T'.filter ok').map F := by
    refine List.Perm.eq_of_pairwise (le := le) ?_ ?_ ?_ ?_
    · intro A B hA hB h1 h2
      obtain ⟨p, hp, rfl⟩ := List.mem_map.1 hA
      obtain ⟨q, hq, rfl⟩ := List.mem_map.1 hB
      obtain ⟨hp, hpk⟩ := List.mem_filter.1 hp
      obtain ⟨hq, hqk⟩ := List.mem_filter.1 hq
      exact tieF p hp q hq hpk hqk (hle _ _ h2) (hle _ _ h1)
    · rw [List.pairwise_map]
      exact (hT.sorted.sublist List.filter_sublist).imp fun h => hle' _ _ h
    · rw [List.pairwise_map]
      exact (hT'.sorted.sublist List.filter_sublist).imp fun h => hle' _ _ h
    · refine best_perm F ok ok' hU hid hT hT' hok ?_
      intro p hp q hq h1 _ h3 h4
      exact tieF p hp q hq h1 (by rw [← hok p hp q hq h3 h4]; exact h1) h3 h4
  have := congrArg (List.map Prod.fst) e
  rw [List.map_map, List.map_map] at this
  exact this

end

/-! ### One letter -/

/-- The same tables, sorted by two algorithms. -/
structure SameTables {P : Type} (s s' : Setup P) (n : Nat) : Prop where
  first : s.first = s'.first
  simple : s.simple = s'.simple
  complex : s.complex = s'.complex
  exclusive : s.exclusive = s'.exclusive
  byWords : s.byWords = s'.byWords
  glyphs : s.glyphs = s'.glyphs
  limit : s.limit = s'.limit
  ids : ∀ i j, i < n → j < n → (s.ids.getD i 0 = s.ids.getD j 0 ↔ s'.ids.getD i 0 = s'.ids.getD j 0)

section
variable {P : Type} [MonoDbl P]

theorem universe_mem {s : Setup P} {val : Simple → Nat} {n : Nat} {a r : Image} (ok : SetupOk s val n a r)
    {U : List (Nat × P)} (h : computeSimpleUniverse s.cap s.first s.simple s.idx a r = .ok U) (p : Nat × P) :
    p ∈ U ↔ Close s a r p.1 ∧ p.2 = simpleProb s a r p.1 := by
  have hv : ∀ t ∈ s.first :: s.simple, val t = loaded a r t := by
    intro t ht
    unfold loaded
    rw [ok.load t ht]
    rfl
  obtain ⟨l, e, _, hm⟩ := computeSimpleUniverse_ok (P := P) s.sort s.cap n s.first s.simple a r (loaded a r)
    (fun t ht => by rw [ok.load t ht, hv t ht])
    (fun t ht => ⟨(ok.simple t ht).pos, (ok.simple t ht).small, (ok.simple t ht).len, by
      rw [← hv t ht]; exact (ok.simple t ht).inRange⟩) ok.cap
  rw [ok.idx, e] at h
  cases h
  rw [List.mem_map]
  constructor
  · rintro ⟨g, hg, rfl⟩
    exact ⟨(hm g).1 hg, rfl⟩
  · rintro ⟨h1, h2⟩
    exact ⟨p.1, (hm p.1).2 h1, Prod.ext rfl h2.symm⟩

theorem survivors_mem {s : Setup P} {a r : Image} {U : List (Nat × P)} (hU : ∀ p, p ∈ U ↔ Close s a r p.1 ∧ p.2 = simpleProb s a r p.1)
    (p : Nat × P) : p ∈ survivors s a r U ↔ Close s a r p.1 ∧ Kept s a r p.1 ∧ p.2 = fullProb s a r p.1 := by
  unfold survivors
  rw [List.mem_filter, List.mem_map]
  constructor
  · rintro ⟨⟨q, hq, rfl⟩, h2⟩
    obtain ⟨hq, hk⟩ := List.mem_filter.1 hq
    obtain ⟨h3, h4⟩ := (hU q).1 hq
    refine ⟨h3, ⟨hk, h2⟩, ?_⟩
    show _ = (complexScore s.complex a r (q.1, simpleProb s a r q.1)).2
    rw [← h4]
  · rintro ⟨h1, ⟨h2, h3⟩, h4⟩
    refine ⟨⟨(p.1, simpleProb s a r p.1), List.mem_filter.2 ⟨(hU _).2 ⟨h1, rfl⟩, h2⟩, ?_⟩, h3⟩
    exact Prod.ext rfl h4.symm

/-- What two algorithms find for a letter: the best candidates of the same classes, above the same limit. -/
theorem computeImage_pair {s s' : Setup P} {n : Nat} {val val' : Simple → Nat} {a r : Image} (hs : SameTables s s' n)
    (ok : SetupOk s val n a r) (ok' : SetupOk s' val' n a r) (t t' : List (Nat × P)) :
    ∃ (o o' : Outcome P) (V V' T T' : List (Nat × P)) (lim lim' : P), computeImage s t a r = .ok o ∧
      computeImage s' t' a r = .ok o' ∧ o.views = viewsOf s.glyphs T lim ∧ o'.views = viewsOf s.glyphs T' lim' ∧
      Best s.ids V T ∧ Best s'.ids V' T' ∧ (∀ p, p ∈ V ↔ p ∈ V') ∧ (∀ p ∈ V, p.1 < n) ∧
      Dbl.le lim lim' = true ∧ Dbl.le lim' lim = true ∧
      ((lim = Dbl.ofPct 100 ∧ ∀ p ∈ V, Close s a r p.1 ∧ p.2 = simpleProb s a r p.1) ∨
        ∀ p ∈ V, Close s a r p.1 ∧ Kept s a r p.1 ∧ p.2 = fullProb s a r p.1) := by
  obtain ⟨U, e1, g1, T, o, hT, c1, _, _, h1⟩ := computeImage_ok s val n a r ok t
  obtain ⟨U', e1', g1', T', o', hT', c1', _, _, h1'⟩ := computeImage_ok s' val' n a r ok' t'
  have hU := universe_mem ok e1
  have hU' := universe_mem ok' e1'
  have eC : ∀ g, Close s' a r g ↔ Close s a r g := by
    intro g; unfold Close; rw [hs.first, hs.simple]
  have eP : ∀ g, simpleProb s' a r g = simpleProb s a r g := by
    intro g; unfold simpleProb; rw [hs.first, hs.simple]
  have hUU : ∀ p, p ∈ U ↔ p ∈ U' := by
    intro p; rw [hU, hU', eC, eP]
  have hSS : ∀ p, p ∈ survivors s a r U ↔ p ∈ survivors s' a r U' := by
    intro p
    rw [survivors_mem hU, survivors_mem hU', eC]
    unfold Kept fullProb
    rw [eP, hs.complex, hs.exclusive, hs.byWords]
  rcases h1 with ⟨hne, hb, hp, hv⟩ | ⟨hp, hb, hv⟩
  · rcases h1' with ⟨hne', hb', hp', hv'⟩ | ⟨hp', hb', hv'⟩
    · refine ⟨o, o', U, U', T, T', Dbl.ofPct 100, Dbl.ofPct 100, c1, c1', hv, by rw [hs.glyphs]; exact hv', hb, hb', hUU, g1.2,
        le_refl_P _, le_refl_P _, .inl ⟨rfl, fun p hp => (hU p).1 hp⟩⟩
    · exfalso
      rcases hp' with hp' | hp'
      · rw [← hs.complex, ← hs.exclusive] at hp'
        exact hne hp'
      · obtain ⟨p, h1, h2⟩ := hp
        rw [hp' p ((hUU p).1 h1)] at h2
        cases h2
  · rcases h1' with ⟨hne', hb', hp', hv'⟩ | ⟨hp', hb', hv'⟩
    · exfalso
      rcases hp with hp | hp
      · rw [hs.complex, hs.exclusive] at hp
        exact hne' hp
      · obtain ⟨p, h1, h2⟩ := hp'
        rw [hp p ((hUU p).2 h1)] at h2
        cases h2
    · have hsg := survivors_good (s := s) (img := a) (img90 := r) g1
      have hlast := fun p => (survivors_mem (P := P) hU p).1
      cases T with
      | nil =>
        have hT'0 : T' = [] := by
          cases T' with
          | nil => rfl
          | cons b T' =>
            obtain ⟨q, hq, _⟩ := hb.cover b ((hSS b).2 (hb'.sub b (by simp)))
            exact absurd hq (by simp)
        subst hT'0
        exact ⟨o, o', _, _, [], [], s.limit, s.limit, c1, c1', hv, hv', hb, hb', hSS, hsg.2, le_refl_P _, le_refl_P _, .inr hlast⟩
      | cons b T =>
        cases T' with
        | nil =>
          obtain ⟨q, hq, _⟩ := hb'.cover b ((hSS b).1 (hb.sub b (by simp)))
          exact absurd hq (by simp)
        | cons b' T' =>
          have top : ∀ {b : Nat × P} {T : List (Nat × P)}, ((b :: T).Pairwise fun a b => Dbl.le b.2 a.2 = true) →
              ∀ p ∈ b :: T, Dbl.le p.2 b.2 = true := by
            intro b T h p hp
            rcases List.mem_cons.1 hp with rfl | hp
            · exact le_refl_P _
            · exact (List.pairwise_cons.1 h).1 p hp
          have l1 : Dbl.le b.2 b'.2 = true := by
            obtain ⟨q, hq, _, h⟩ := hb'.cover b ((hSS b).1 (hb.sub b (by simp)))
            exact LawfulDbl.trans _ _ _ h (top hb'.sorted q hq)
          have l2 : Dbl.le b'.2 b.2 = true := by
            obtain ⟨q, hq, _, h⟩ := hb.cover b' ((hSS b').2 (hb'.sub b' (by simp)))
            exact LawfulDbl.trans _ _ _ h (top hb.sorted q hq)
          refine ⟨o, o', _, _, b :: T, b' :: T', Dbl.mul b.2 s.limit, Dbl.mul b'.2 s.limit, c1, c1', hv, ?_, hb, hb', hSS,
            hsg.2, MonoDbl.mul_mono _ _ _ l1, MonoDbl.mul_mono _ _ _ l2, .inr hlast⟩
          rw [hs.glyphs, hs.limit]
          exact hv'

theorem viewsOf_eq (glyphs : List (List View)) (T : List (Nat × P)) (lim : P) :
    viewsOf glyphs T lim = ((T.filter fun p => Dbl.le lim p.2).map fun p => glyphs.getD p.1 []).flatten := by
  unfold viewsOf
  rw [List.flatMap_def]

/-- The limits select the same. -/
theorem limit_same {lim lim' : P} (h1 : Dbl.le lim lim' = true) (h2 : Dbl.le lim' lim = true) {x y : P} (h3 : Dbl.le x y = true)
    (h4 : Dbl.le y x = true) : Dbl.le lim x = Dbl.le lim' y := by
  have : Dbl.le lim x = true ↔ Dbl.le lim' y = true :=
    ⟨fun h => LawfulDbl.trans _ _ _ h2 (LawfulDbl.trans _ _ _ h h3),
      fun h => LawfulDbl.trans _ _ _ h1 (LawfulDbl.trans _ _ _ h h4)⟩
  cases hx : Dbl.le lim x <;> cases hy : Dbl.le lim' y <;> simp_all

theorem computeImage_same {s s' : Setup P} {n : Nat} {val val' : Simple → Nat} {a r : Image} (hs : SameTables s s' n)
    (ok : SetupOk s val n a r) (ok' : SetupOk s' val' n a r) (hset : Settled s a r) (t t' : List (Nat × P)) :
    ∃ o o', computeImage s t a r = .ok o ∧ computeImage s' t' a r = .ok o' ∧ o.views = o'.views := by
  obtain ⟨o, o', V, V', T, T', lim, lim', c, c', hv, hv', hb, hb', hV, hn, l1, l2, hc⟩ := computeImage_pair hs ok ok' t t'
  refine ⟨o, o', c, c', ?_⟩
  rw [hv, hv', viewsOf_eq, viewsOf_eq]
  congr 1
  refine best_same (fun p => s.glyphs.getD p.1 []) _ _ hV (fun p hp q hq => hs.ids _ _ (hn p hp) (hn q hq)) hb hb'
    (fun p _ q _ h3 h4 => limit_same l1 l2 h3 h4) ?_
  intro p hp q hq k1 k2 h3 h4
  have hp := hb.sub p hp
  have hq := (hV q).2 (hb'.sub q hq)
  rcases hc with ⟨rfl, hc⟩ | hc
  · obtain ⟨p1, p2⟩ := hc p hp
    obtain ⟨q1, q2⟩ := hc q hq
    rw [p2] at k1 h3
    rw [q2] at h3
    exact hset.perfect _ _ p1 q1 k1 (LawfulDbl.trans _ _ _ k1 h3)
  · obtain ⟨p1, p2, p3⟩ := hc p hp
    obtain ⟨q1, q2, q3⟩ := hc q hq
    rw [p3, q3] at h3 h4
    exact hset.tied _ _ p1 q1 p2 q2 h3 h4

theorem computeImage_words {s s' : Setup P} {n : Nat} {val val' : Simple → Nat} {a r : Image} (hs : SameTables s s' n)
    (ok : SetupOk s val n a r) (ok' : SetupOk s' val' n a r)
    (hw : ∀ i j, i < n → j < n → s.ids.getD i 0 = s.ids.getD j 0 → wordsOf (s.glyphs.getD i []) = wordsOf (s.glyphs.getD j []))
    (t t' : List (Nat × P)) :
    ∃ o o', computeImage s t a r = .ok o ∧ computeImage s' t' a r = .ok o' ∧
      (o.views.map View.word).Perm (o'.views.map View.word) := by
  obtain ⟨o, o', V, V', T, T', lim, lim', c, c', hv, hv', hb, hb', hV, hn, l1, l2, hc⟩ := computeImage_pair hs ok ok' t t'
  refine ⟨o, o', c, c', ?_⟩
  rw [hv, hv', viewsOf_eq, viewsOf_eq, List.map_flatten, List.map_flatten, List.map_map, List.map_map]
  apply List.Perm.flatten
  refine best_perm (List.map View.word ∘ fun p : Nat × P => s.glyphs.getD p.1 []) _ _ hV
    (fun p hp q hq => hs.ids _ _ (hn p hp) (hn q hq)) hb hb' (fun p _ q _ h3 h4 => limit_same l1 l2 h3 h4) ?_
  intro p hp q hq _ e _ _
  exact hw _ _ (hn p (hb.sub p hp)) (hn q ((hV q).2 (hb'.sub q hq))) e

end

/-! ### The line -/

section
variable {P Q : Type} [Dbl P] [Dbl Q]

/-- The same line with the buffer of another computation. -/
def Line.withTmp (l : Line P) (t : List (Nat × Q)) : Line Q :=
  ⟨l.heap, l.ctx, l.cache, l.st, l.refs, l.spaces, l.nth, l.boxes, t⟩

theorem lookLetter_same {s : Setup P} {s' : Setup Q} {g : RGlyphs} {l m : Line P} (t : List (Nat × Q)) {a : Image} (wf : a.WF)
    (hc : ∃ cells, l.ctx.Inv l.heap a cells)
    (hv : ∀ r, a.rotate90 = .ok r → ∀ t t', ∃ o o', computeImage s t a r = .ok o ∧ computeImage s' t' a r = .ok o' ∧
      o.views = o'.views) (h : lookLetter s g l = .ok m) :
    ∃ t', lookLetter s' g (l.withTmp t) = .ok (m.withTmp t') := by
  obtain ⟨cells, hc⟩ := hc
  unfold lookLetter at h ⊢
  have iv := (inv_img hc).2
  simp only [Line.withTmp]
  rw [iv, Res.ok_bind] at h ⊢
  obtain ⟨hit, e, h⟩ := Res.bind_eq_ok.1 h
  rw [e, Res.ok_bind]
  cases hit with
  | some r =>
    cases h
    exact ⟨t, rfl⟩
  | none =>
    simp only [] at h ⊢
    unfold newLetter at h ⊢
    obtain ⟨h', c', l', e1, inv', v1, v2⟩ := doImg90_views hc
    simp only [] at h ⊢
    rw [e1, Res.ok_bind] at h ⊢
    simp only [] at h ⊢
    rw [v1, Res.ok_bind, v2, Res.ok_bind] at h ⊢
    obtain ⟨o, o', c1, c2, e2⟩ := hv _ (rotate90_turned wf) l.tmp t
    rw [c1, Res.ok_bind] at h
    rw [c2, Res.ok_bind, ← e2]
    obtain ⟨key, e3, h⟩ := Res.bind_eq_ok.1 h
    rw [e3, Res.ok_bind]
    obtain ⟨⟨m', q⟩, e4, h⟩ := Res.bind_eq_ok.1 h
    rw [e4, Res.ok_bind]
    simp only [] at h ⊢
    obtain ⟨u, e5, h⟩ := Res.bind_eq_ok.1 h
    rw [e5, Res.ok_bind]
    cases h
    exact ⟨o'.tmp, rfl⟩

theorem letterStep_same {s : Setup P} {s' : Setup Q} {g : RGlyphs} {i : Image} (wf : i.WF) {l m : Line P} {as keys : List Image} {a : Image}
    {b : Box} {x : Nat} (inv : LineInv s l as keys) (hw : 0 < b.w) (hh : 0 < b.h) (hx : b.x + b.w ≤ i.bounds.w)
    (hy : b.y + b.h ≤ i.bounds.h) (hs : i.section b.x b.y b.bounds = .ok a) (hr : Readable s g a)
    (hv : ∀ r, a.rotate90 = .ok r → ∀ t t', ∃ o o', computeImage s t a r = .ok o ∧ computeImage s' t' a r = .ok o' ∧
      o.views = o'.views) (t : List (Nat × Q)) (h : letterStep s g i x b l = .ok m) :
    ∃ t', letterStep s' g i x b (l.withTmp t) = .ok (m.withTmp t') := by
  obtain ⟨j, cells, hc⟩ := inv.ctx
  obtain ⟨a', e1, wa, hb, hm⟩ := C55_section i wf b.x b.y b.bounds hw hh
    (show b.w + b.x ≤ _ by omega) (show b.h + b.y ≤ _ by omega)
  rw [hs] at e1
  cases e1
  have hd := doImg_ok hc wa hr.small hm
  rw [hb] at hd
  obtain ⟨h', c', cells', e2, inv2, _⟩ := hd
  unfold letterStep at h ⊢
  simp only [Line.withTmp] at h ⊢
  rw [e2, Res.ok_bind] at h ⊢
  simp only [] at h ⊢
  obtain ⟨m', e3, h⟩ := Res.bind_eq_ok.1 h
  obtain ⟨t', e4⟩ := lookLetter_same (s' := s') t hr.wf ⟨cells', inv2⟩ hv e3
  simp only [Line.withTmp] at e4
  rw [e4, Res.ok_bind]
  cases h
  exact ⟨t', rfl⟩

theorem lineLoop_same {s : Setup P} {s' : Setup Q} {g : RGlyphs} {i : Image} (wf : i.WF) (hi : i.bounds.w + 4 < W32) :
    ∀ (fuel x : Nat) (bs : List Box) (as' : List Image) (l m : Line P) (as keys : List Image) (t : List (Nat × Q)),
      segmentFrom i fuel x = .ok bs →
      (∀ b ∈ bs, 0 < b.w ∧ 0 < b.h ∧ b.x + b.w ≤ i.bounds.w ∧ b.y + b.h ≤ i.bounds.h) →
      Pictures i bs as' → (∀ a ∈ as', Readable s g a) →
      (∀ a ∈ as', ∀ r, a.rotate90 = .ok r → ∀ t t', ∃ o o', computeImage s t a r = .ok o ∧ computeImage s' t' a r = .ok o' ∧
        o.views = o'.views) →
      LineInv s l as keys → x = endBefore l.boxes l.boxes.length → x ≤ i.bounds.w → l.nth = l.boxes.length →
      l.nth + bs.length < W32 → l.spaces = gaps l.boxes → lineLoop s g i fuel x l = .ok m →
      ∃ t', lineLoop s' g i fuel x (l.withTmp t) = .ok (m.withTmp t') := by
  intro fuel
  induction fuel with
  | zero => intro x bs as' l m as keys t h; simp [segmentFrom] at h
  | succ fuel ih =>
    intro x bs as' l m as keys t h hb hp hr hv inv hx hxw hn hnl hg hm
    unfold segmentFrom at h
    obtain ⟨b, h1, h⟩ := Res.bind_eq_ok.1 h
    unfold lineLoop at hm ⊢
    rw [h1, Res.ok_bind] at hm ⊢
    by_cases ht : b.truthy = true
    · rw [if_pos ht] at h hm ⊢
      obtain ⟨r, h2, h⟩ := Res.bind_eq_ok.1 h
      cases h
      cases as' with
      | nil => exact absurd hp (by simp [Pictures])
      | cons a as' =>
        obtain ⟨hp1, hp2⟩ := hp
        obtain ⟨b1, b2, b3, b4⟩ := hb b (by simp)
        have hwl := wf.w_lt
        simp only [List.length_cons] at hnl
        obtain ⟨l1, keys1, e1, inv1, f1, f2, f3⟩ := letterStep_ok (s := s) (g := g) wf hi inv b1 b2 b3 b4 hp1
          (hr a (by simp)) hx hxw hn (by omega) hg
        obtain ⟨t1, e2⟩ := letterStep_same (s' := s') wf inv b1 b2 b3 b4 hp1 (hr a (by simp)) (hv a (by simp)) t e1
        rw [e1, Res.ok_bind] at hm
        rw [e2, Res.ok_bind]
        rw [uadd_eq (by omega)] at h2 hm ⊢
        exact ih (b.x + b.w) r as' l1 m (as ++ [a]) keys1 t1 h2
          (fun c hc => hb c (by simp [hc])) hp2 (fun c hc => hr c (by simp [hc])) (fun c hc => hv c (by simp [hc])) inv1
          (by rw [f1]; simp [endBefore]) b3 f3 (by rw [f3, f1, List.length_append, ← hn, List.length_singleton]; omega) f2 hm
    · rw [if_neg ht] at h hm ⊢
      cases h
      cases hm
      exact ⟨t, rfl⟩

end

end Ppocr

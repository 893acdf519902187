import Verif.Proofs.SortFree
import Verif.Spec.Supplement

/-! # Lemmas for C99: glyphs added to a table -/

namespace Ppocr
open Spec Props

/-! ### The candidates of two tables -/

/-- What a letter sees of two tables: the glyphs close to it in the second one are those of the first one, at other places. -/
structure Moved {P : Type} [Dbl P] (s s' : Setup P) (n n' : Nat) (e : Nat → Nat) (ρ : View → View) (a r : Image) : Prop where
  once : ∀ g h, g < n → h < n → e g = e h → g = h
  lt : ∀ g, g < n → e g < n'
  close : ∀ g, g < n → (Close s' a r (e g) ↔ Close s a r g)
  only : ∀ g, g < n' → Close s' a r g → ∃ k, k < n ∧ e k = g
  prob : ∀ g, g < n → simpleProb s' a r (e g) = simpleProb s a r g
  full : ∀ g, g < n → fullProb s' a r (e g) = fullProb s a r g
  kept : ∀ g, g < n → (Kept s' a r (e g) ↔ Kept s a r g)
  views : ∀ g, g < n → s'.glyphs.getD (e g) [] = (s.glyphs.getD g []).map ρ
  limit : s'.limit = s.limit
  only1 : (s'.complex = [] ∧ s'.exclusive = []) ↔ (s.complex = [] ∧ s.exclusive = [])

open Classical in
/-- The place in the first table. -/
noncomputable def backTo (n : Nat) (e : Nat → Nat) (g : Nat) : Nat :=
  if h : ∃ k, k < n ∧ e k = g then Classical.choose h else 0

theorem backTo_spec {n : Nat} {e : Nat → Nat} {g : Nat} (h : ∃ k, k < n ∧ e k = g) : backTo n e g < n ∧ e (backTo n e g) = g := by
  unfold backTo
  rw [dif_pos h]
  exact Classical.choose_spec h

theorem backTo_place {n : Nat} {e : Nat → Nat} (ho : ∀ g h, g < n → h < n → e g = e h → g = h) {g : Nat} (hg : g < n) :
    backTo n e (e g) = g := by
  obtain ⟨h1, h2⟩ := backTo_spec (n := n) (e := e) ⟨g, hg, rfl⟩
  exact ho _ _ h1 hg h2

/-- A candidate with its place in the first table. -/
noncomputable def backP {P : Type} (n : Nat) (e : Nat → Nat) (p : Nat × P) : Nat × P := (backTo n e p.1, p.2)

/-- The ids of the second table at the places of the first one. -/
def idsAt (n : Nat) (e : Nat → Nat) (ids : List Nat) : List Nat := (List.range n).map fun g => ids.getD (e g) 0

theorem idsAt_get {n : Nat} (e : Nat → Nat) (ids : List Nat) {g : Nat} (h : g < n) : (idsAt n e ids).getD g 0 = ids.getD (e g) 0 := by
  unfold idsAt
  rw [List.getD_eq_getElem?_getD, List.getElem?_map, List.getElem?_range h]
  rfl

section
variable {P : Type} [Dbl P]

theorem best_back {n : Nat} {e : Nat → Nat} {ids : List Nat} {U V T : List (Nat × P)} (hU : ∀ p ∈ U, ∃ k, k < n ∧ e k = p.1)
    (hV : ∀ p, p ∈ V ↔ p ∈ U.map (backP n e)) (h : Best ids U T) : Best (idsAt n e ids) V (T.map (backP n e)) := by
  have key : ∀ p ∈ U, (idsAt n e ids).getD (backP n e p).1 0 = ids.getD p.1 0 := by
    intro p hp
    obtain ⟨h1, h2⟩ := backTo_spec (hU p hp)
    show (idsAt n e ids).getD (backTo n e p.1) 0 = _
    rw [idsAt_get e ids h1, h2]
  refine ⟨?_, ?_, ?_, ?_⟩
  · intro p hp
    obtain ⟨q, hq, rfl⟩ := List.mem_map.1 hp
    exact (hV _).2 (List.mem_map.2 ⟨q, h.sub q hq, rfl⟩)
  · rw [List.pairwise_map]
    refine h.distinct.imp_of_mem ?_
    intro p q hp hq hne
    rw [key p (h.sub p hp), key q (h.sub q hq)]
    exact hne
  · rw [List.pairwise_map]
    exact h.sorted
  · intro u hu
    obtain ⟨u', hu', rfl⟩ := List.mem_map.1 ((hV u).1 hu)
    obtain ⟨p, hp, e1, e2⟩ := h.cover u' hu'
    exact ⟨backP n e p, List.mem_map.2 ⟨p, hp, rfl⟩, by rw [key p (h.sub p hp), key u' hu', e1], e2⟩

theorem best_congr {ids : List Nat} {U V T : List (Nat × P)} (hV : ∀ p, p ∈ V ↔ p ∈ U) (h : Best ids U T) : Best ids V T :=
  ⟨fun p hp => (hV p).2 (h.sub p hp), h.distinct, h.sorted, fun u hu => h.cover u ((hV u).1 hu)⟩

theorem viewsOf_back {n : Nat} {e : Nat → Nat} {ρ : View → View} {glyphs glyphs' : List (List View)} {T : List (Nat × P)} (lim : P)
    (hT : ∀ p ∈ T, ∃ k, k < n ∧ e k = p.1) (hv : ∀ g, g < n → glyphs'.getD (e g) [] = (glyphs.getD g []).map ρ) :
    viewsOf glyphs' T lim = (viewsOf glyphs (T.map (backP n e)) lim).map ρ := by
  induction T with
  | nil => rfl
  | cons p T ih =>
    have ih := ih fun q hq => hT q (by simp [hq])
    obtain ⟨h1, h2⟩ := backTo_spec (hT p (by simp))
    have hp : glyphs'.getD p.1 [] = (glyphs.getD (backP n e p).1 []).map ρ := by
      show _ = (glyphs.getD (backTo n e p.1) []).map ρ
      rw [← hv _ h1, h2]
    have h2 : (backP n e p).2 = p.2 := rfl
    unfold viewsOf at ih ⊢
    rw [List.map_cons, List.filter_cons, List.filter_cons, h2]
    split
    · rw [List.flatMap_cons, List.flatMap_cons, List.map_append, ih, hp]
    · exact ih

end

section
variable {P : Type} [MonoDbl P]

theorem Moved.back {s s' : Setup P} {n n' : Nat} {e : Nat → Nat} {ρ : View → View} {a r : Image} (hm : Moved s s' n n' e ρ a r)
    {U U' : List (Nat × P)} {A A' : Nat → Prop} {f f' : Nat → P} (hU : ∀ p, p ∈ U ↔ Close s a r p.1 ∧ A p.1 ∧ p.2 = f p.1)
    (hU' : ∀ p, p ∈ U' ↔ Close s' a r p.1 ∧ A' p.1 ∧ p.2 = f' p.1) (hn : ∀ p ∈ U, p.1 < n) (hn' : ∀ p ∈ U', p.1 < n')
    (hA : ∀ g, g < n → (A' (e g) ↔ A g)) (hf : ∀ g, g < n → f' (e g) = f g) (p : Nat × P) :
    p ∈ U ↔ p ∈ U'.map (backP n e) := by
  rw [List.mem_map]
  constructor
  · intro hp
    have hl := hn p hp
    obtain ⟨h1, h2, h3⟩ := (hU p).1 hp
    refine ⟨(e p.1, p.2), (hU' _).2 ⟨(hm.close _ hl).2 h1, (hA _ hl).2 h2, by rw [h3]; exact (hf _ hl).symm⟩, ?_⟩
    exact Prod.ext (backTo_place hm.once hl) rfl
  · rintro ⟨q, hq, rfl⟩
    have hl := hn' q hq
    obtain ⟨h1, h2, h3⟩ := (hU' q).1 hq
    obtain ⟨k1, k2⟩ := backTo_spec (hm.only _ hl h1)
    refine (hU _).2 ⟨?_, ?_, ?_⟩
    · show Close s a r (backTo n e q.1)
      rw [← hm.close _ k1, k2]
      exact h1
    · show A (backTo n e q.1)
      rw [← hA _ k1, k2]
      exact h2
    · show q.2 = f (backTo n e q.1)
      rw [← hf _ k1, k2]
      exact h3

/-- What the two tables give for a letter: the best candidates among the same ones, above the same limit. -/
theorem computeImage_moved {s s' : Setup P} {n n' : Nat} {val val' : Simple → Nat} {a r : Image} {e : Nat → Nat} {ρ : View → View}
    (hm : Moved s s' n n' e ρ a r) (ok : SetupOk s val n a r) (ok' : SetupOk s' val' n' a r) (hl : s.limit = Dbl.ofPct 50)
    (t t' : List (Nat × P)) :
    ∃ (o o' : Outcome P) (V T T' : List (Nat × P)) (lim lim' : P), computeImage s t a r = .ok o ∧
      computeImage s' t' a r = .ok o' ∧ o.views = viewsOf s.glyphs T lim ∧ o'.views = (viewsOf s.glyphs T' lim').map ρ ∧
      Best s.ids V T ∧ Best (idsAt n e s'.ids) V T' ∧ (∀ p ∈ V, p.1 < n) ∧
      Dbl.le lim lim' = true ∧ Dbl.le lim' lim = true ∧
      ((lim = Dbl.ofPct 100 ∧ (∃ p ∈ V, Dbl.le (Dbl.ofPct 100) p.2 = true) ∧ ∀ p ∈ V, Close s a r p.1 ∧ p.2 = simpleProb s a r p.1) ∨
        ((∀ p ∈ V, Close s a r p.1 ∧ Kept s a r p.1 ∧ p.2 = fullProb s a r p.1) ∧
          ∀ b, T.head? = some b → lim = Dbl.mul b.2 (Dbl.ofPct 50))) := by
  obtain ⟨U, e1, g1, T, o, hT, c1, _, _, h1⟩ := computeImage_ok s val n a r ok t
  obtain ⟨U', e1', g1', T', o', hT', c1', _, _, h1'⟩ := computeImage_ok s' val' n' a r ok' t'
  have hU := universe_mem ok e1
  have hU' := universe_mem ok' e1'
  have hUU := fun p => hm.back (U := U) (U' := U') (A := fun _ => True) (A' := fun _ => True) (f := simpleProb s a r)
    (f' := simpleProb s' a r) (by simpa using hU) (by simpa using hU') g1.2 g1'.2 (fun _ _ => Iff.rfl) hm.prob p
  have hon' : ∀ p ∈ U', ∃ k, k < n ∧ e k = p.1 := fun p hp => hm.only _ (g1'.2 p hp) ((hU' p).1 hp).1
  have hsg := survivors_good (s := s) (img := a) (img90 := r) g1
  have hsg' := survivors_good (s := s') (img := a) (img90 := r) g1'
  have hlast := survivors_mem (P := P) hU
  have hlast' := survivors_mem (P := P) hU'
  have hSS := fun p => hm.back (A := Kept s a r) (A' := Kept s' a r) (f := fullProb s a r)
    (f' := fullProb s' a r) hlast hlast' hsg.2 hsg'.2 hm.kept hm.full p
  have hons' : ∀ p ∈ survivors s' a r U', ∃ k, k < n ∧ e k = p.1 := fun p hp => hm.only _ (hsg'.2 p hp) ((hlast' p).1 hp).1
  have hperf : (∃ p ∈ U, Dbl.le (Dbl.ofPct 100) p.2 = true) ↔ ∃ p ∈ U', Dbl.le (Dbl.ofPct 100) p.2 = true := by
    constructor
    · rintro ⟨p, hp, h⟩
      obtain ⟨q, hq, rfl⟩ := List.mem_map.1 ((hUU p).1 hp)
      exact ⟨q, hq, h⟩
    · rintro ⟨q, hq, h⟩
      exact ⟨backP n e q, (hUU _).2 (List.mem_map.2 ⟨q, hq, rfl⟩), h⟩
  rcases h1 with ⟨hne, hb, hp, hv⟩ | ⟨hp, hb, hv⟩
  · rcases h1' with ⟨hne', hb', hp', hv'⟩ | ⟨hp', hb', hv'⟩
    · refine ⟨o, o', U, T, T'.map (backP n e), Dbl.ofPct 100, Dbl.ofPct 100, c1, c1', hv, ?_, hb,
        best_back hon' hUU hb', g1.2, le_refl_P _, le_refl_P _, .inl ⟨rfl, hp, fun p hp => (hU p).1 hp⟩⟩
      rw [hv']
      exact viewsOf_back _ (fun p hp => hon' p (hb'.sub p hp)) hm.views
    · exfalso
      rcases hp' with hp' | hp'
      · exact hne (hm.only1.1 hp')
      · obtain ⟨p, h1, h2⟩ := hperf.1 hp
        rw [hp' p h1] at h2
        cases h2
  · rcases h1' with ⟨hne', hb', hp', hv'⟩ | ⟨hp', hb', hv'⟩
    · exfalso
      rcases hp with hp | hp
      · exact hne' (hm.only1.2 hp)
      · obtain ⟨p, h1, h2⟩ := hperf.2 hp'
        rw [hp p h1] at h2
        cases h2
    · have hbb := best_back hons' hSS hb'
      have hvv := fun lim => viewsOf_back (n := n) (e := e) (ρ := ρ) (glyphs := s.glyphs) (glyphs' := s'.glyphs) (T := T') lim
        (fun p hp => hons' p (hb'.sub p hp)) hm.views
      cases T with
      | nil =>
        have hT'0 : T' = [] := by
          cases T' with
          | nil => rfl
          | cons b T' =>
            obtain ⟨q, hq, _⟩ := hb.cover (backP n e b) (hbb.sub _ (by simp))
            exact absurd hq (by simp)
        subst hT'0
        exact ⟨o, o', _, [], [], s.limit, s.limit, c1, c1', hv, by rw [hv']; rfl, hb, hbb, hsg.2, le_refl_P _, le_refl_P _,
          .inr ⟨fun p => (hlast p).1, by simp⟩⟩
      | cons b T =>
        cases T' with
        | nil =>
          obtain ⟨q, hq, _⟩ := hbb.cover b (hb.sub b (by simp))
          exact absurd hq (by simp)
        | cons b' T' =>
          have top : ∀ {b : Nat × P} {T : List (Nat × P)}, ((b :: T).Pairwise fun a b => Dbl.le b.2 a.2 = true) →
              ∀ p ∈ b :: T, Dbl.le p.2 b.2 = true := by
            intro b T h p hp
            rcases List.mem_cons.1 hp with rfl | hp
            · exact le_refl_P _
            · exact (List.pairwise_cons.1 h).1 p hp
          have l1 : Dbl.le b.2 b'.2 = true := by
            obtain ⟨q, hq, _, h⟩ := hbb.cover b (hb.sub b (by simp))
            exact LawfulDbl.trans _ _ _ h (top (b := backP n e b') (T := T'.map (backP n e)) hbb.sorted q hq)
          have l2 : Dbl.le b'.2 b.2 = true := by
            obtain ⟨q, hq, _, h⟩ := hb.cover (backP n e b') (hbb.sub _ (by simp))
            exact LawfulDbl.trans _ _ _ h (top hb.sorted q hq)
          refine ⟨o, o', _, b :: T, (b' :: T').map (backP n e), Dbl.mul b.2 s.limit, Dbl.mul b'.2 s.limit, c1, c1', hv, ?_, hb, hbb,
            hsg.2, MonoDbl.mul_mono _ _ _ l1, MonoDbl.mul_mono _ _ _ l2, .inr ⟨fun p => (hlast p).1, ?_⟩⟩
          · rw [hv']
            show viewsOf s'.glyphs (b' :: T') (Dbl.mul b'.2 s'.limit) = _
            rw [hm.limit]
            exact hvv _
          · rintro c hc
            cases hc
            rw [hl]

/-- Candidates of equal probability have the same views. -/
theorem settled_tie {s : Setup P} {a r : Image} (hset : Settled s a r) {V : List (Nat × P)} {lim : P}
    (hc : (lim = Dbl.ofPct 100 ∧ ∀ p ∈ V, Close s a r p.1 ∧ p.2 = simpleProb s a r p.1) ∨
      ∀ p ∈ V, Close s a r p.1 ∧ Kept s a r p.1 ∧ p.2 = fullProb s a r p.1) {p q : Nat × P} (hp : p ∈ V) (hq : q ∈ V)
    (k1 : Dbl.le lim p.2 = true) (h3 : Dbl.le p.2 q.2 = true) (h4 : Dbl.le q.2 p.2 = true) :
    s.glyphs.getD p.1 [] = s.glyphs.getD q.1 [] := by
  rcases hc with ⟨rfl, hc⟩ | hc
  · obtain ⟨p1, p2⟩ := hc p hp
    obtain ⟨q1, q2⟩ := hc q hq
    have k2 := LawfulDbl.trans _ _ _ k1 h3
    rw [p2] at k1
    rw [q2] at k2
    exact hset.perfect _ _ p1 q1 k1 k2
  · obtain ⟨p1, p2, p3⟩ := hc p hp
    obtain ⟨q1, q2, q3⟩ := hc q hq
    rw [p3, q3] at h3 h4
    exact hset.tied _ _ p1 q1 p2 q2 h3 h4

/-- The views are the same if the ids tell the same glyphs apart. -/
theorem computeImage_moved_same {s s' : Setup P} {n n' : Nat} {val val' : Simple → Nat} {a r : Image} {e : Nat → Nat} {ρ : View → View}
    (hm : Moved s s' n n' e ρ a r) (ok : SetupOk s val n a r) (ok' : SetupOk s' val' n' a r) (hl : s.limit = Dbl.ofPct 50)
    (hset : Settled s a r)
    (hid : ∀ g h, g < n → h < n → (s.ids.getD g 0 = s.ids.getD h 0 ↔ s'.ids.getD (e g) 0 = s'.ids.getD (e h) 0)) (t t' : List (Nat × P)) :
    ∃ o o', computeImage s t a r = .ok o ∧ computeImage s' t' a r = .ok o' ∧ o'.views = o.views.map ρ := by
  obtain ⟨o, o', V, T, T', lim, lim', c, c', hv, hv', hb, hb', hn, l1, l2, hc⟩ := computeImage_moved hm ok ok' hl t t'
  refine ⟨o, o', c, c', ?_⟩
  rw [hv, hv']
  congr 1
  rw [viewsOf_eq, viewsOf_eq]
  congr 1
  symm
  refine best_same (fun p => s.glyphs.getD p.1 []) _ _ (fun p => Iff.rfl) (fun p hp q hq => ?_) hb hb'
    (fun p _ q _ h3 h4 => limit_same l1 l2 h3 h4) ?_
  · rw [idsAt_get e s'.ids (hn p hp), idsAt_get e s'.ids (hn q hq)]
    exact hid _ _ (hn p hp) (hn q hq)
  · intro p hp q hq k1 _ h3 h4
    exact settled_tie hset (hc.imp (fun h => ⟨h.1, h.2.2⟩) (fun h => h.1)) (hb.sub p hp) (hb'.sub q hq) k1 h3 h4

/-- Whatever the ids are, the views start with those of the best glyph. -/
theorem computeImage_moved_first {s s' : Setup P} {n n' : Nat} {val val' : Simple → Nat} {a r : Image} {e : Nat → Nat} {ρ : View → View}
    (hm : Moved s s' n n' e ρ a r) (ok : SetupOk s val n a r) (ok' : SetupOk s' val' n' a r) (hl : s.limit = Dbl.ofPct 50)
    (hset : Settled s a r) (t t' : List (Nat × P)) :
    ∃ o o', computeImage s t a r = .ok o ∧ computeImage s' t' a r = .ok o' ∧
      ((o.views = [] ∧ o'.views = []) ∨ ∃ g more more', g < n ∧ o.views = s.glyphs.getD g [] ++ more ∧
        o'.views = (s.glyphs.getD g []).map ρ ++ more') := by
  obtain ⟨o, o', V, T, T', lim, lim', c, c', hv, hv', hb, hb', hn, l1, l2, hc⟩ := computeImage_moved hm ok ok' hl t t'
  refine ⟨o, o', c, c', ?_⟩
  cases T with
  | nil =>
    cases T' with
    | nil => exact .inl ⟨hv, hv'⟩
    | cons b' T' =>
      obtain ⟨q, hq, _⟩ := hb.cover b' (hb'.sub b' (by simp))
      exact absurd hq (by simp)
  | cons b T =>
    cases T' with
    | nil =>
      obtain ⟨q, hq, _⟩ := hb'.cover b (hb.sub b (by simp))
      exact absurd hq (by simp)
    | cons b' T' =>
      have top : ∀ {b : Nat × P} {T : List (Nat × P)}, ((b :: T).Pairwise fun a b => Dbl.le b.2 a.2 = true) →
          ∀ p ∈ b :: T, Dbl.le p.2 b.2 = true := by
        intro b T h p hp
        rcases List.mem_cons.1 hp with rfl | hp
        · exact le_refl_P _
        · exact (List.pairwise_cons.1 h).1 p hp
      have m1 : Dbl.le b.2 b'.2 = true := by
        obtain ⟨q, hq, _, h⟩ := hb'.cover b (hb.sub b (by simp))
        exact LawfulDbl.trans _ _ _ h (top hb'.sorted q hq)
      have m2 : Dbl.le b'.2 b.2 = true := by
        obtain ⟨q, hq, _, h⟩ := hb.cover b' (hb'.sub b' (by simp))
        exact LawfulDbl.trans _ _ _ h (top hb.sorted q hq)
      have k1 : Dbl.le lim b.2 = true := by
        rcases hc with ⟨rfl, ⟨p, hp, h⟩, _⟩ | ⟨_, h⟩
        · obtain ⟨q, hq, _, h'⟩ := hb.cover p hp
          exact LawfulDbl.trans _ _ _ h (LawfulDbl.trans _ _ _ h' (top hb.sorted q hq))
        · rw [h b rfl]
          exact LawfulDbl.half_le _
      have k2 : Dbl.le lim' b'.2 = true := by
        rw [← limit_same l1 l2 m1 m2]
        exact k1
      have hview := settled_tie hset (hc.imp (fun h => ⟨h.1, h.2.2⟩) (fun h => h.1)) (hb.sub b (by simp)) (hb'.sub b' (by simp)) k1 m1 m2
      refine .inr ⟨b.1, viewsOf s.glyphs T lim, (viewsOf s.glyphs T' lim').map ρ, hn b (hb.sub b (by simp)), ?_, ?_⟩
      · rw [hv]
        unfold viewsOf
        rw [List.filter_cons, if_pos k1, List.flatMap_cons]
      · rw [hv']
        unfold viewsOf
        rw [List.filter_cons, if_pos k2, List.flatMap_cons, List.map_append, hview]

end

/-! ### The tables of the program -/

section
variable {imgs imgs' : List Image} {d d' : Datas}

theorem get_same (h : Learnt imgs d) (h' : Learnt imgs' d') {s : Feat × Policy} (hs : s ∈ registered) {g g' : Nat} {i : Image}
    (hi : Sized i) (hg : imgs[g]? = some i) (hg' : imgs'[g']? = some i) : (d'.get s)[g']? = (d.get s)[g]? := by
  obtain ⟨q, hq, _⟩ := hi.rotate
  obtain ⟨v, e1, e2⟩ := (get_learnt h hs).2 g i q hg hq
  obtain ⟨v', e1', e2'⟩ := (get_learnt h' hs).2 g' i q hg' hq
  rw [e2] at e2'
  cases e2'
  rw [e1, e1']

theorem rd_same {V : Type} (f : Value → V) {l l' : List Value} {g g' : Nat} (h : l'[g']? = l[g]?) :
    rd (l'.map f) g' = rd (l.map f) g := by
  unfold rd
  rw [List.getElem?_map, List.getElem?_map, h]

/-- What a strategy sees of a glyph is the same in both tables. -/
theorem strat_same {s : Feat × Policy} {g g' : Nat} (h : (d'.get s)[g']? = (d.get s)[g]?) (a r : Image) :
    simOf (d'.strat s) a r g' = simOf (d.strat s) a r g ∧ testOf (d'.strat s) a r g' = testOf (d.strat s) a r g := by
  obtain ⟨f, p⟩ := s
  unfold simOf testOf testRun Datas.strat
  cases f <;> simp only [rd_same _ h, and_self]

theorem far_not_close {P : Type} [Dbl P] {S : StdSort} {glyphs : List (List View)} {bw : List (List Nat)} (h : Learnt imgs d)
    {a r : Image} (hr : a.rotate90 = .ok r) {g : Nat} {i : Image} (hg : imgs[g]? = some i) (hf : Far i a) :
    ¬ Close (setupOf S glyphs d bw : Setup P) a r g := by
  intro hc
  obtain ⟨s, hs, ri, ra, x, y, e1, e2, e3, e4, hd⟩ := hf
  rw [hr] at e2
  cases e2
  obtain ⟨t, h1, h2, h3⟩ := hc (d.simple s) (by
    show d.simple s ∈ simpleStrats.map d.simple
    exact List.mem_map.2 ⟨s, hs, rfl⟩)
  obtain ⟨v, k1, k2⟩ := (get_learnt h (simpleStrats_registered hs)).2 g i ri hg e1
  rw [e3] at k2
  cases k2
  have h1 : ((d.get s).map Value.toNum)[g]? = some t := h1
  rw [List.getElem?_map, k1] at h1
  cases h1
  have hl : loaded a r (d.simple s) = y := by
    unfold loaded
    show valueOr 0 (do return (← loadStrat s a r).toNum : Res Nat) = y
    rw [loadStrat_eq, e4]
    rfl
  rw [hl] at h2 h3
  have hk : (d.simple s).k = s.1.k := rfl
  rw [hk] at h2 h3
  have ht : (Value.num x).toNum = x := rfl
  rw [ht] at h2 h3
  omega

variable {P : Type} [Dbl P] {glyphs glyphs' : List (List View)} {bw bw' : List (List Nat)} {e : Nat → Nat} {ρ : View → View}

theorem firstWord_within (hn : glyphs.length = imgs.length) (he : [] ∉ glyphs) (hw : Within e ρ imgs glyphs imgs' glyphs')
    {g k : Nat} (hg : g < imgs.length) (hk : k < imgs.length) :
    firstWord glyphs' (e g) = firstWord glyphs' (e k) ↔ firstWord glyphs g = firstWord glyphs k := by
  have key : ∀ g, g < imgs.length → ∃ v vs, glyphs[g]? = some (v :: vs) ∧ firstWord glyphs g = some v.word ∧
      firstWord glyphs' (e g) = some (ρ v).word := by
    intro g hg
    obtain ⟨vs, hvs⟩ : ∃ vs, glyphs[g]? = some vs := ⟨_, List.getElem?_eq_getElem (by omega)⟩
    cases vs with
    | nil => exact absurd (List.mem_of_getElem? hvs) he
    | cons v vs =>
      refine ⟨v, vs, hvs, ?_, ?_⟩
      · unfold firstWord
        rw [hvs]
        rfl
      · unfold firstWord
        rw [hw.views g _ hvs]
        rfl
  obtain ⟨v, vs, h1, h2, h3⟩ := key g hg
  obtain ⟨u, us, k1, k2, k3⟩ := key k hk
  rw [h2, h3, k2, k3, Option.some.injEq, Option.some.injEq]
  exact hw.words _ (List.mem_of_getElem? h1) v (by simp) _ (List.mem_of_getElem? k1) u (by simp)

theorem within_lt (hw : Within e ρ imgs glyphs imgs' glyphs') {g : Nat} (hg : g < imgs.length) : e g < imgs'.length :=
  (List.getElem?_eq_some_iff.1 (hw.place g _ (List.getElem?_eq_getElem hg))).1

/-- The glyphs of the same word are the same ones. -/
theorem byWords_within (hn : glyphs.length = imgs.length) (hn' : glyphs'.length = imgs'.length) (he : [] ∉ glyphs) (he' : [] ∉ glyphs')
    (hb : dataIndexesByWords glyphs = .ok bw) (hb' : dataIndexesByWords glyphs' = .ok bw')
    (hw : Within e ρ imgs glyphs imgs' glyphs') (hnew : NewWords e imgs glyphs') {g : Nat} (hg : g < imgs.length) :
    (∀ j ∈ bw.getD g [], j < imgs.length) ∧ ∀ j', j' ∈ bw'.getD (e g) [] ↔ ∃ j ∈ bw.getD g [], e j = j' := by
  obtain ⟨t, e1, e2, e3, _⟩ := C33_by_words glyphs he
  obtain ⟨t', e1', e2', e3', _⟩ := C33_by_words glyphs' he'
  rw [hb] at e1
  rw [hb'] at e1'
  cases e1
  cases e1'
  obtain ⟨r, h1, _, h2⟩ := e3 g (by omega)
  obtain ⟨r', h1', _, h2'⟩ := e3' (e g) (by rw [hn']; exact within_lt hw hg)
  rw [List.getD_eq_getElem?_getD, List.getD_eq_getElem?_getD, h1, h1']
  refine ⟨fun j hj => by rw [← hn]; exact ((h2 j).1 hj).1, fun j' => ?_⟩
  simp only [Option.getD_some]
  rw [h2']
  constructor
  · rintro ⟨a1, a2, a3⟩
    by_cases ha : Added e imgs j'
    · exact absurd a3 (hnew j' ha g hg)
    · have : ∃ k, k < imgs.length ∧ e k = j' := by
        apply Classical.byContradiction
        intro h
        exact ha fun k hk he => h ⟨k, hk, he⟩
      obtain ⟨k, hk, rfl⟩ := this
      refine ⟨k, (h2 k).2 ⟨by omega, fun h => a2 (by rw [h]), (firstWord_within hn he hw hk hg).1 a3⟩, rfl⟩
  · rintro ⟨j, hj, rfl⟩
    obtain ⟨a1, a2, a3⟩ := (h2 j).1 hj
    have hj : j < imgs.length := by omega
    exact ⟨by rw [hn']; exact within_lt hw hj, fun h => a2 (hw.once _ _ hj hg h), (firstWord_within hn he hw hj hg).2 a3⟩

theorem wordKeep_same {ss ss' : List Strat} {a r : Image} {g g' : Nat}
    (hj : ∀ j', j' ∈ bw'.getD g' [] ↔ ∃ j ∈ bw.getD g [], e j = j')
    (ht : ∀ j ∈ bw.getD g [], (ss'.all fun s => testOf s a r (e j)) = ss.all fun s => testOf s a r j) :
    wordKeep bw' ss' a r g' = wordKeep bw ss a r g := by
  unfold wordKeep
  congr 1
  · cases h : bw.getD g [] with
    | nil =>
      have : bw'.getD g' [] = [] := by
        rw [List.eq_nil_iff_forall_not_mem]
        intro j' hj'
        obtain ⟨j, hj, _⟩ := (hj j').1 hj'
        rw [h] at hj
        exact absurd hj (by simp)
      rw [this]
    | cons j l =>
      have := (hj (e j)).2 ⟨j, by rw [h]; simp, rfl⟩
      cases h' : bw'.getD g' [] with
      | nil => rw [h'] at this; exact absurd this (by simp)
      | cons _ _ => rfl
  · rw [Bool.eq_iff_iff, List.any_eq_true, List.any_eq_true]
    constructor
    · rintro ⟨j', h1, h2⟩
      obtain ⟨j, h3, rfl⟩ := (hj j').1 h1
      exact ⟨j, h3, by rw [← ht j h3]; exact h2⟩
    · rintro ⟨j, h1, h2⟩
      exact ⟨e j, (hj _).2 ⟨j, h1, rfl⟩, by rw [ht j h1]; exact h2⟩

/-- Glyphs far from the letter, with new words, do not matter to it. -/
theorem moved_of (S S' : StdSort) (h : Learnt imgs d) (h' : Learnt imgs' d') (hi : ∀ i ∈ imgs, Sized i)
    (hn : glyphs.length = imgs.length) (hn' : glyphs'.length = imgs'.length) (he : [] ∉ glyphs) (he' : [] ∉ glyphs')
    (hb : dataIndexesByWords glyphs = .ok bw) (hb' : dataIndexesByWords glyphs' = .ok bw')
    (hw : Within e ρ imgs glyphs imgs' glyphs') (hnew : NewWords e imgs glyphs') {a r : Image} (hr : a.rotate90 = .ok r)
    (hfar : AddedFar e imgs imgs' a) :
    Moved (setupOf S glyphs d bw : Setup P) (setupOf S' glyphs' d' bw') imgs.length imgs'.length e ρ a r := by
  have hget : ∀ g, g < imgs.length → ∀ s ∈ registered, (d'.get s)[e g]? = (d.get s)[g]? := by
    intro g hg s hs
    exact get_same h h' hs (hi _ (List.getElem_mem hg)) (List.getElem?_eq_getElem hg) (hw.place g _ (List.getElem?_eq_getElem hg))
  have htab : ∀ g, g < imgs.length → ∀ s ∈ simpleStrats, (d'.simple s).tab[e g]? = (d.simple s).tab[g]? := by
    intro g hg s hs
    show ((d'.get s).map Value.toNum)[e g]? = ((d.get s).map Value.toNum)[g]?
    rw [List.getElem?_map, List.getElem?_map, hget g hg s (simpleStrats_registered hs)]
  have hprob : ∀ g, g < imgs.length → simpleProb (setupOf S' glyphs' d' bw' : Setup P) a r (e g) =
      simpleProb (setupOf S glyphs d bw : Setup P) a r g := by
    intro g hg
    have hd : ∀ s ∈ simpleStrats, sim (d'.simple s).k ((d'.simple s).tab.getD (e g) 0) (loaded a r (d'.simple s)) =
        sim (d.simple s).k ((d.simple s).tab.getD g 0) (loaded a r (d.simple s)) := by
      intro s hs
      rw [List.getD_eq_getElem?_getD, List.getD_eq_getElem?_getD, htab g hg s hs]
      rfl
    have hfold : ∀ (l : List (Feat × Policy)), (∀ s ∈ l, s ∈ simpleStrats) → ∀ x : P,
        (l.map d'.simple).foldl (fun p s => Dbl.mul p (Dbl.ofPct (sim s.k (s.tab.getD (e g) 0) (loaded a r s)))) x =
        (l.map d.simple).foldl (fun p s => Dbl.mul p (Dbl.ofPct (sim s.k (s.tab.getD g 0) (loaded a r s)))) x := by
      intro l
      induction l with
      | nil => intro _ x; rfl
      | cons s l ih =>
        intro hl x
        simp only [List.map_cons, List.foldl_cons]
        rw [hd s (hl s (by simp))]
        exact ih (fun t ht => hl t (by simp [ht])) _
    show score _ (d'.simple firstStrat) (otherStrats.map d'.simple) (e g) = score _ (d.simple firstStrat) (otherStrats.map d.simple) g
    unfold score
    rw [hd firstStrat (by decide)]
    exact hfold otherStrats (by decide) _
  have hcr : ∀ s ∈ complexStrats, s ∈ registered := by decide
  have her : ∀ s ∈ exclusiveStrats, s ∈ registered := by decide
  refine ⟨hw.once, fun g hg => within_lt hw hg, ?_, ?_, hprob, ?_, ?_, ?_, rfl, ?_⟩
  · intro g hg
    have key : ∀ s ∈ simpleStrats, Near (d'.simple s).tab (loaded a r (d'.simple s)) ((d'.simple s).k / 10) (e g) ↔
        Near (d.simple s).tab (loaded a r (d.simple s)) ((d.simple s).k / 10) g := by
      intro s hs
      unfold Near
      rw [htab g hg s hs]
      exact Iff.rfl
    show (∀ t ∈ simpleStrats.map d'.simple, _) ↔ ∀ t ∈ simpleStrats.map d.simple, _
    constructor
    · intro hc t ht
      obtain ⟨s, hs, rfl⟩ := List.mem_map.1 ht
      exact (key s hs).1 (hc _ (List.mem_map.2 ⟨s, hs, rfl⟩))
    · intro hc t ht
      obtain ⟨s, hs, rfl⟩ := List.mem_map.1 ht
      exact (key s hs).2 (hc _ (List.mem_map.2 ⟨s, hs, rfl⟩))
  · intro g hg hc
    apply Classical.byContradiction
    intro hno
    have ha : Added e imgs g := fun k hk hek => hno ⟨k, hk, hek⟩
    exact far_not_close h' hr (List.getElem?_eq_getElem hg) (hfar g _ ha (List.getElem?_eq_getElem hg)) hc
  · intro g hg
    unfold fullProb
    rw [hprob g hg]
    show (complexScore (complexStrats.map d'.strat) a r _).2 = (complexScore (complexStrats.map d.strat) a r _).2
    unfold complexScore
    simp only [complexStrats, List.map_cons, List.map_nil, List.foldl_cons, List.foldl_nil]
    rw [(strat_same (hget g hg _ (hcr _ (by decide))) a r).1, (strat_same (hget g hg _ (hcr _ (by decide))) a r).1,
      (strat_same (hget g hg _ (hcr _ (by decide))) a r).1]
  · intro g hg
    obtain ⟨b1, b2⟩ := byWords_within hn hn' he he' hb hb' hw hnew hg
    have e1 : complexKeep P (complexStrats.map d'.strat) a r (e g) = complexKeep P (complexStrats.map d.strat) a r g := by
      unfold complexKeep
      simp only [complexStrats, List.map_cons, List.map_nil, List.all_cons, List.all_nil]
      rw [(strat_same (hget g hg _ (hcr _ (by decide))) a r).1, (strat_same (hget g hg _ (hcr _ (by decide))) a r).1,
        (strat_same (hget g hg _ (hcr _ (by decide))) a r).1]
    have e2 : wordKeep bw' (exclusiveStrats.map d'.strat) a r (e g) = wordKeep bw (exclusiveStrats.map d.strat) a r g := by
      refine wordKeep_same b2 fun j hj => ?_
      have hj := b1 j hj
      simp only [exclusiveStrats, List.map_cons, List.map_nil, List.all_cons, List.all_nil]
      rw [(strat_same (hget j hj _ (her _ (by decide))) a r).2, (strat_same (hget j hj _ (her _ (by decide))) a r).2]
    show (complexKeep P (complexStrats.map d'.strat) a r (e g) = true ∧ wordKeep bw' (exclusiveStrats.map d'.strat) a r (e g) = true) ↔
      (complexKeep P (complexStrats.map d.strat) a r g = true ∧ wordKeep bw (exclusiveStrats.map d.strat) a r g = true)
    rw [e1, e2]
  · intro g hg
    show glyphs'.getD (e g) [] = (glyphs.getD g []).map ρ
    have hg' : glyphs[g]? = some (glyphs[g]'(by omega)) := List.getElem?_eq_getElem (by omega)
    rw [List.getD_eq_getElem?_getD, List.getD_eq_getElem?_getD, hw.views g _ hg', hg']
    rfl
  · show (complexStrats.map d'.strat = [] ∧ _) ↔ (complexStrats.map d.strat = [] ∧ _)
    simp [complexStrats]

end

/-! ### Letters that divide by zero -/

section
variable {imgs imgs' : List Image} {glyphs glyphs' : List (List View)} {e : Nat → Nat} {ρ : View → View}

theorem not_added {j : Nat} (h : ¬ Added e imgs j) : ∃ k, k < imgs.length ∧ e k = j := by
  apply Classical.byContradiction
  intro hno
  exact h fun k hk he => hno ⟨k, hk, he⟩

theorem restOf_map {n : Nat} (ho : ∀ g h, g < n → h < n → e g = e h → g = h) {l : List Nat} (hl : ∀ k ∈ l, k < n) {g : Nat}
    (hg : g < n) : restOf (l.map e) (e g) = (restOf l g).map e := by
  unfold restOf
  rw [List.getLast?_map]
  cases hm : l.getLast? with
  | none => rfl
  | some m =>
    have hmn : m < n := hl m (List.mem_of_getLast? hm)
    have hmg : (e g = e m) ↔ g = m := ⟨ho _ _ hg hmn, fun h => by rw [h]⟩
    simp only [Option.map_some, hmg]
    split
    · rw [List.map_dropLast]
    · rw [List.map_cons, ← List.map_dropLast, List.filter_map]
      congr 2
      apply List.filter_congr
      intro k hk
      have hkn : k < n := hl k ((List.dropLast_sublist _).subset hk)
      have hkg : (e k = e g) ↔ k = g := ⟨ho _ _ hkn hg, fun h => by rw [h]⟩
      simp only [Function.comp_apply, ne_eq, hkg]

theorem others_within (hn : glyphs.length = imgs.length) (hn' : glyphs'.length = imgs'.length) (he : [] ∉ glyphs)
    (hw : Within e ρ imgs glyphs imgs' glyphs') (hnew : NewWords e imgs glyphs') (hmono : ∀ g h, g < h → h < imgs.length → e g < e h)
    {g : Nat} (hg : g < imgs.length) : others glyphs' (e g) = (others glyphs g).map e := by
  unfold others
  rw [hn, hn', ← restOf_map hw.once (fun k hk => List.mem_range.1 (List.mem_filter.1 hk).1) hg]
  congr 1
  have hs : ((List.range imgs'.length).filter fun j => decide (firstWord glyphs' j = firstWord glyphs' (e g))).Pairwise (· < ·) :=
    List.pairwise_lt_range.sublist List.filter_sublist
  have hs' : (((List.range imgs.length).filter fun j => decide (firstWord glyphs j = firstWord glyphs g)).map e).Pairwise (· < ·) := by
    rw [List.pairwise_map]
    refine (List.pairwise_lt_range.sublist List.filter_sublist).imp_of_mem ?_
    intro a b _ hb hab
    exact hmono _ _ hab (List.mem_range.1 (List.mem_filter.1 hb).1)
  refine List.Perm.eq_of_pairwise (le := (· < ·)) (fun a b _ _ h1 h2 => by omega) hs hs' ?_
  rw [List.perm_ext_iff_of_nodup (hs.imp Nat.ne_of_lt) (hs'.imp Nat.ne_of_lt)]
  intro j
  rw [List.mem_filter, List.mem_map, List.mem_range, decide_eq_true_eq]
  constructor
  · rintro ⟨h1, h2⟩
    by_cases ha : Added e imgs j
    · exact absurd h2 (hnew j ha g hg)
    · obtain ⟨k, hk, rfl⟩ := not_added ha
      exact ⟨k, List.mem_filter.2 ⟨List.mem_range.2 hk, decide_eq_true ((firstWord_within hn he hw hk hg).1 h2)⟩, rfl⟩
  · rintro ⟨k, hk, rfl⟩
    obtain ⟨h1, h2⟩ := List.mem_filter.1 hk
    have h1 := List.mem_range.1 h1
    exact ⟨within_lt hw h1, (firstWord_within hn he hw h1 hg).2 (of_decide_eq_true h2)⟩

theorem far_not_alike {i a : Image} (h : Far i a) : ¬ Alike i a := by
  intro ha
  obtain ⟨s, hs, ri, ra, x, y, e1, e2, e3, e4, hd⟩ := h
  obtain ⟨ri', ra', x', y', f1, f2, f3, f4, hlt⟩ := ha s hs
  rw [e1] at f1; cases f1
  rw [e2] at f2; cases f2
  rw [e3] at f3; cases f3
  rw [e4] at f4; cases f4
  rcases feat_k s.1 with hk | hk <;> rw [hk] at hlt hd <;> omega

theorem far_not_closeTo {i a : Image} (h : Far i a) : ¬ CloseTo i a := by
  rintro ⟨ri', ra', f1, f2, hc, _⟩
  obtain ⟨s, hs, ri, ra, x, y, e1, e2, e3, e4, hd⟩ := h
  rw [e1] at f1; cases f1
  rw [e2] at f2; cases f2
  obtain ⟨x', y', f3, f4, h1, h2⟩ := hc s hs
  rw [e3] at f3; cases f3
  rw [e4] at f4; cases f4
  omega

theorem blocked_within (hn : glyphs.length = imgs.length) (hn' : glyphs'.length = imgs'.length) (he : [] ∉ glyphs)
    (hw : Within e ρ imgs glyphs imgs' glyphs') (hnew : NewWords e imgs glyphs') (hmono : ∀ g h, g < h → h < imgs.length → e g < e h)
    {a : Image} (hfar : AddedFar e imgs imgs' a) : Blocked imgs' glyphs' a ↔ Blocked imgs glyphs a := by
  have pull : ∀ g' i, imgs'[g']? = some i → ¬ Far i a → ∃ g, g < imgs.length ∧ e g = g' ∧ imgs[g]? = some i := by
    intro g' i hg' hf
    obtain ⟨k, hk, rfl⟩ := not_added fun h => hf (hfar g' i h hg')
    refine ⟨k, hk, rfl, ?_⟩
    have := hw.place k _ (List.getElem?_eq_getElem hk)
    rw [hg'] at this
    rw [this]
    exact List.getElem?_eq_getElem hk
  have hoth : ∀ g, ∀ k ∈ others glyphs g, k < imgs.length := by
    intro g k hk
    have hsub : ∀ (l : List Nat) j, ∀ k ∈ restOf l j, k ∈ l := by
      intro l j k hk
      unfold restOf at hk
      cases hm : l.getLast? with
      | none => rw [hm] at hk; exact absurd hk (by simp)
      | some m =>
        rw [hm] at hk
        simp only at hk
        split at hk
        · exact (List.dropLast_sublist _).subset hk
        · rcases List.mem_cons.1 hk with rfl | hk
          · exact List.mem_of_getLast? hm
          · exact (List.dropLast_sublist _).subset (List.mem_filter.1 hk).1
    have := List.mem_range.1 (List.mem_filter.1 (hsub _ _ k hk)).1
    omega
  have hback : ∀ k, k < imgs.length → ∀ c, imgs'[e k]? = some c ↔ imgs[k]? = some c := by
    intro k hk c
    rw [hw.place k _ (List.getElem?_eq_getElem hk), List.getElem?_eq_getElem hk]
  constructor
  · rintro ⟨h1, g', i, pre, j, post, b, h2, h3, h4, h5, h6, h7, h8⟩
    obtain ⟨g, hg, rfl, hgi⟩ := pull g' i h2 fun h => far_not_closeTo h h3
    rw [others_within hn hn' he hw hnew hmono hg] at h4
    obtain ⟨pre0, rest, e1, e2, e3⟩ := List.map_eq_append_iff.1 h4
    obtain ⟨j0, post0, e4, e5, e6⟩ := List.map_eq_cons_iff.1 e3
    have hmem := hoth g
    rw [e1, e4] at hmem
    refine ⟨?_, g, i, pre0, j0, post0, b, hgi, h3, by rw [e1, e4], ?_, ?_, h7, h8⟩
    · rintro k ⟨c, hc, hac⟩
      exact h1 (e k) ⟨c, hw.place k c hc, hac⟩
    · intro k hk c hc
      exact h5 (e k) (by rw [← e2]; exact List.mem_map.2 ⟨k, hk, rfl⟩) c (hw.place k c hc)
    · rw [← e5] at h6
      exact (hback j0 (hmem j0 (by simp)) b).1 h6
  · rintro ⟨h1, g, i, pre, j, post, b, h2, h3, h4, h5, h6, h7, h8⟩
    have hg := (List.getElem?_eq_some_iff.1 h2).1
    have hmem := hoth g
    rw [h4] at hmem
    refine ⟨?_, e g, i, pre.map e, e j, post.map e, b, hw.place g i h2, h3, ?_, ?_, hw.place j b h6, h7, h8⟩
    · rintro k ⟨c, hc, hac⟩
      obtain ⟨k0, _, rfl, hk0⟩ := pull k c hc fun h => far_not_alike h hac
      exact h1 k0 ⟨c, hk0, hac⟩
    · rw [others_within hn hn' he hw hnew hmono hg, h4]
      simp
    · intro k hk c hc
      obtain ⟨k0, hk0, rfl⟩ := List.mem_map.1 hk
      exact h5 k0 hk0 c ((hback k0 (hmem k0 (by simp [hk0])) c).1 hc)

end

end Ppocr

import Verif.Proofs.Read8
import Verif.Proofs.Order6
import Verif.Props.Line6

/-! # Helper lemmas: the order of the glyphs in `extract_text8` -/

namespace Ppocr
open Spec Props

/-! ## Other orders and spellings of the lists of words -/

section
variable {P : Type} [Prob8 P] {idx : List Nat} {imgs imgs' : List Image} {ws ws' : List Words}

theorem Moved6.match8 (m : Moved6 idx imgs ws imgs' ws') {a : Image} {k j : Nat} (h : idx[k]? = some j) :
    Match8 imgs' a k ↔ Match8 imgs a j := by
  unfold Match8
  rw [m.img k j h]

theorem Moved6.noMatch8 (m : Moved6 idx imgs ws imgs' ws') {a : Image} : (∃ k, Match8 imgs' a k) ↔ ∃ j, Match8 imgs a j := by
  constructor
  · rintro ⟨k, hk⟩
    obtain ⟨i, hi, _⟩ := id hk
    obtain ⟨j, hj, _⟩ := m.to (List.getElem?_eq_some_iff.1 hi).1
    exact ⟨j, (m.match8 hj).1 hk⟩
  · rintro ⟨j, hj⟩
    obtain ⟨i, hi, _⟩ := id hj
    obtain ⟨k, hk⟩ := m.fro (List.getElem?_eq_some_iff.1 hi).1
    exact ⟨k, (m.match8 hk).2 hj⟩

theorem Moved6.kept8 (m : Moved6 idx imgs ws imgs' ws') {a : Image} {k j : Nat} (h : idx[k]? = some j) :
    Kept8 imgs' ws' a k ↔ Kept8 imgs ws a j := by
  unfold Kept8
  rw [m.img k j h]
  apply and_congr_right
  intro _
  constructor
  · rintro (h0 | ⟨l, b, h1, h2, h3⟩)
    · left
      intro l hl
      obtain ⟨_, _, u, _, e, _⟩ := id hl
      obtain ⟨l', hl'⟩ := m.fro (lt_of_word' m e)
      exact h0 l' ((m.twin h hl').2 hl)
    · right
      obtain ⟨l', hl', _⟩ := m.to (List.getElem?_eq_some_iff.1 h2).1
      exact ⟨l', b, (m.twin h hl').1 h1, by rw [← m.img _ _ hl']; exact h2, h3⟩
  · rintro (h0 | ⟨l, b, h1, h2, h3⟩)
    · left
      intro l hl
      obtain ⟨_, _, u, _, e, _⟩ := id hl
      obtain ⟨l', hl', _⟩ := m.to (lt_of_word m e)
      exact h0 l' ((m.twin h hl').1 hl)
    · right
      obtain ⟨l', hl'⟩ := m.fro (List.getElem?_eq_some_iff.1 h2).1
      exact ⟨l', b, (m.twin h hl').2 h1, by rw [m.img _ _ hl']; exact h2, h3⟩

theorem Moved6.best8 (m : Moved6 idx imgs ws imgs' ws') {a : Image} {k j : Nat} (h : idx[k]? = some j) :
    Best8 P imgs' ws' a k ↔ Best8 P imgs ws a j := by
  unfold Best8
  rw [m.kept8 h, m.img k j h]
  apply and_congr_right
  intro _
  constructor
  · intro h0 l x y hl hx hy
    obtain ⟨l', hl'⟩ := m.fro (List.getElem?_eq_some_iff.1 hy).1
    exact h0 l' x y ((m.kept8 hl').2 hl) hx (by rw [m.img _ _ hl']; exact hy)
  · intro h0 l x y hl hx hy
    obtain ⟨l', hl', _⟩ := m.to (List.getElem?_eq_some_iff.1 hy).1
    exact h0 l' x y ((m.kept8 hl').1 hl) hx (by rw [← m.img _ _ hl']; exact hy)

theorem Moved6.chosen8 (m : Moved6 idx imgs ws imgs' ws') {a : Image} {k j : Nat} (h : idx[k]? = some j) :
    Chosen8 P imgs' ws' a k ↔ Chosen8 P imgs ws a j := by
  unfold Chosen8
  rw [m.match8 h, m.best8 h, ← not_exists, ← not_exists, m.noMatch8]

theorem Moved6.mem (m : Moved6 idx imgs ws imgs' ws') {i : Image} : i ∈ imgs' ↔ i ∈ imgs := by
  constructor
  · intro hi
    obtain ⟨k, hk⟩ := List.getElem?_of_mem hi
    obtain ⟨j, hj, _⟩ := m.to (List.getElem?_eq_some_iff.1 hk).1
    exact List.mem_of_getElem? (by rw [← m.img _ _ hj]; exact hk)
  · intro hi
    obtain ⟨j, hj⟩ := List.getElem?_of_mem hi
    obtain ⟨k, hk⟩ := m.fro (List.getElem?_eq_some_iff.1 hj).1
    exact List.mem_of_getElem? (by rw [m.img _ _ hk]; exact hj)

theorem Moved6.reads8 (m : Moved6 idx imgs ws imgs' ws') {a : Image} {o : Letter6} (h : Reads8 P imgs' ws' a o) :
    Reads8 P imgs ws a o := by
  refine ⟨?_, h.read, h.unread, ?_, fun he => h.same (m.noMatch8.2 he)⟩
  · intro w
    rw [h.words w]
    constructor
    · rintro ⟨g, v, h1, h2, h3⟩
      obtain ⟨j, hj, _⟩ := m.to (lt_of_word m h2)
      exact ⟨j, v, (m.chosen8 hj).1 h1, by rw [← m.word _ _ hj]; exact h2, h3⟩
    · rintro ⟨g, v, h1, h2, h3⟩
      obtain ⟨j, hj⟩ := m.fro (lt_of_word' m h2)
      exact ⟨j, v, (m.chosen8 hj).2 h1, by rw [m.word _ _ hj]; exact h2, h3⟩
  · rcases h.first with ⟨g, i, v, h1, h2, h2', h3, h4⟩ | ⟨h1, h2⟩
    · left
      obtain ⟨j, hj, _⟩ := m.to (lt_of_word m h3)
      exact ⟨j, i, v, by rw [← m.img _ _ hj]; exact h1, h2, fun x hx => h2' x (m.mem.2 hx), by rw [← m.word _ _ hj]; exact h3, h4⟩
    · exact .inr ⟨fun i hi => h1 i (m.mem.2 hi), h2⟩

theorem Moved6.jam8 (m : Moved6 idx imgs ws imgs' ws') {a : Image} (h : Jam8 imgs' ws' a) : Jam8 imgs ws a := by
  obtain ⟨h0, g, i, j, b, h1, h2, h3, h4, h5, h6⟩ := h
  obtain ⟨g', hg, _⟩ := m.to (List.getElem?_eq_some_iff.1 h1).1
  obtain ⟨j', hj, _⟩ := m.to (List.getElem?_eq_some_iff.1 h5).1
  refine ⟨?_, g', i, j', b, by rw [← m.img _ _ hg]; exact h1, h2, h3, (m.twin hg hj).1 h4, by rw [← m.img _ _ hj]; exact h5, h6⟩
  rw [← not_exists, ← m.noMatch8, not_exists]
  exact h0

variable {us : List Words}

theorem kept8_same (h : SameWords ws us) {a : Image} {g : Nat} (hk : Kept8 imgs ws a g) : Kept8 imgs us a g := by
  refine ⟨hk.1, ?_⟩
  rcases hk.2 with ht | ⟨j, b, hj, hb, hz⟩
  · exact .inl fun j hj => ht j (h.symm.twin hj)
  · exact .inr ⟨j, b, h.twin hj, hb, hz⟩

theorem chosen8_same (h : SameWords ws us) {a : Image} {g : Nat}
    (hc : Chosen8 P imgs ws a g) : Chosen8 P imgs us a g := by
  rcases hc with hc | ⟨hn, hk, hb⟩
  · exact .inl hc
  · exact .inr ⟨hn, kept8_same h hk, fun k i j hkk => hb k i j (kept8_same h.symm hkk)⟩

theorem reads8_same (h : SameWords ws us) {a : Image} {o : Letter6}
    (hr : Reads8 P imgs ws a o) : Reads8 P imgs us a o where
  words := by
    intro w
    rw [hr.words w]
    constructor
    · rintro ⟨g, v, hc, hv, hw⟩
      obtain ⟨u, hu, _, hm⟩ := h.get hv
      exact ⟨g, u, chosen8_same h hc, hu, (hm w).1 hw⟩
    · rintro ⟨g, v, hc, hv, hw⟩
      obtain ⟨u, hu, _, hm⟩ := h.symm.get hv
      exact ⟨g, u, chosen8_same h.symm hc, hu, (hm w).1 hw⟩
  read := hr.read
  unread := hr.unread
  first := by
    rcases hr.first with ⟨g, i, v, hi, hn, hb, hv, hw⟩ | h0
    · obtain ⟨u, hu, e, _⟩ := h.get hv
      exact .inl ⟨g, i, u, hi, hn, hb, hu, by rw [← e]; exact hw⟩
    · exact .inr h0
  same := hr.same

theorem jam8_same (h : SameWords ws us) {a : Image} (hj : Jam8 imgs ws a) : Jam8 imgs us a := by
  obtain ⟨hm, g, i, j, b, h1, h2, h3, h4, h5⟩ := hj
  exact ⟨hm, g, i, j, b, h1, h2, h3, h.twin h4, h5⟩

theorem reads8_head {a : Image} {o : Letter6} (h : Reads8 P imgs ws a o) : o.cached.head? = some o.r2 := by
  by_cases h0 : o.amb = []
  · obtain ⟨h1, h2⟩ := h.unread h0
    rw [h1, h2]; rfl
  · obtain ⟨h1, h2⟩ := h.read h0
    rw [h1, h2]

end

/-! ## Tables with the same features in all rows -/

theorem prepare8_same (S : StdSort) (mv : List Nat → List Nat) {d : Datas} {ws : List Words} (hd : d.Fits) (hn : ws.length = d.size)
    (h1 : 1 < ws.length) (h32 : ws.length < W32) (hall : ∀ i j, i < d.size → j < d.size → row d.tables i = row d.tables j) :
    ∃ idx, idx.Perm (List.range d.size) ∧ prepare8 S mv d ws = (do
      let w ← reindex [] idx ws
      let cols ← reindexTables idx d.tables
      return ⟨w, cols, idx⟩) := by
  obtain ⟨idx, es, hp, hs⟩ := sort8_ok S hd
  have hlen : idx.length = d.size := by rw [hp.length_eq, List.length_range]
  have hmem : ∀ x, x ∈ idx ↔ x < d.size := fun x => by rw [hp.mem_iff, List.mem_range]
  obtain ⟨i, js, rfl⟩ : ∃ i js, idx = i :: js := by
    cases idx with
    | nil => simp at hlen; omega
    | cons i js => exact ⟨i, js, rfl⟩
  have hrows : ∀ a ∈ i :: js, ∀ b ∈ i :: js, HasRows d.tables a b := by
    intro a ha b hb t ht
    have := hd.same t ht
    have h1 := (hmem a).1 ha
    have h2 := (hmem b).1 hb
    omega
  obtain ⟨vs, em, km, um⟩ := mergeFrom_ok (mv := mv) hrows ((i :: js).length + 1) 0 ⟨ws, []⟩ i (by omega) rfl
    (by intro x hx; have := (hmem x).1 hx; simp only []; omega)
  simp only [List.nil_append, Nat.zero_add, List.drop_succ_cons, List.drop_zero] at em um
  have hD : unlike (fun j => decide (row d.tables j = row d.tables i)) js 1 = [] := by
    apply List.eq_nil_of_length_eq_zero
    rw [unlike_length, List.countP_eq_zero]
    intro j hj
    simp [hall j i ((hmem j).1 (by simp [hj])) ((hmem i).1 (by simp))]
  rw [hD] at em um
  refine ⟨i :: js, hp, ?_⟩
  unfold prepare8
  simp only []
  rw [if_pos h1, Nat.mod_eq_of_lt (by omega : d.size < W32), List.length_range, decide_eq_true rfl, assert_true, Res.ok_bind, es, Res.ok_bind,
    em, Res.ok_bind, um rfl]
  rfl

theorem columns6_id : ∀ ts : List Table, columns6 ts (ts.map fun t => t.vals.map some) = .ok ts
  | [] => rfl
  | t :: ts => by rw [List.map_cons, columns6, unmoved_some, Res.ok_bind, columns6_id ts]; rfl

/-- The tables, when all rows are the same. -/
theorem tab8_ok (S : StdSort) (mv : List Nat → List Nat) {imgs : List Image} {d : Datas} {ws : List Words} (h : Learnt imgs d)
    (hi : ∀ i ∈ imgs, Sized i) (hl : ws.length = imgs.length) (hne : [] ∉ ws) (hn : imgs.length < W32)
    (hall : ∀ i j, i < imgs.length → j < imgs.length → row d.tables i = row d.tables j) :
    ∃ idx imgs' p bw t, prepare8 S mv d ws = .ok p ∧ makeByWord p.words = .ok bw ∧ tab8 d p bw = .ok t ∧
      Moved6 idx imgs ws imgs' t.words ∧ Taught imgs' t.words t.datas t.byWords := by
  obtain ⟨hf, hsz⟩ := learnt_fits h hi hn
  by_cases h1 : 1 < ws.length
  · obtain ⟨idx, hp, ep⟩ := prepare8_same S mv hf (hl.trans hsz.symm) h1 (by omega) (by rw [hsz]; exact hall)
    rw [hsz] at hp
    obtain ⟨w, ew, wl, wk, wp⟩ := C54_reindex [] idx ws (by rw [hl]; exact hp)
    obtain ⟨cs, ts', ec, et, h1, h2⟩ := columns6_ok hp d.tables (fun t ht => by rw [hf.same t ht, hsz])
    obtain ⟨imgs', _, il, ik, ip⟩ := C54_reindex (⟨⟨0, 0⟩, []⟩ : Image) idx imgs hp
    have hlen : idx.length = imgs.length := by rw [hp.length_eq, List.length_range]
    have hL : Learnt imgs' ⟨ts', Ctxs.fresh⟩ := by
      refine ⟨h1.trans h.strats, ?_⟩
      intro t' ht'
      obtain ⟨t, ht, e1, e2, e3⟩ := h2 t' ht'
      refine ⟨e2.trans il.symm, ?_⟩
      intro k i r hk hr
      have hk' : k < idx.length := by rw [hlen, ← il]; exact (List.getElem?_eq_some_iff.1 hk).1
      have hx := List.getElem?_eq_getElem hk'
      obtain ⟨v, hv, hfv⟩ := (h.rows t ht).2 _ i r (by rw [← ik k _ hx]; exact hk) hr
      exact ⟨v, by rw [e3 k _ hx]; exact hv, by rw [e1]; exact hfv⟩
    have hne' : [] ∉ w := fun hm => hne (wp.mem_iff.1 hm)
    obtain ⟨bw, eb, _⟩ := makeByWord_map hne'
    refine ⟨idx, imgs', ⟨w.map some, cs, idx⟩, bw, ⟨w, ⟨ts', Ctxs.fresh⟩, bw⟩, ?_, eb, ?_, ⟨hp, ik, wk, il, wl, hl⟩,
      hL, fun i hm => hi i (ip.mem_iff.1 hm), ?_, hne', eb⟩
    · rw [ep, ew, Res.ok_bind, ec]; rfl
    · unfold tab8
      simp only []
      rw [unmoved_some, Res.ok_bind, et]
      rfl
    · show w.length = imgs'.length
      rw [wl, hl, il]
  · obtain ⟨bw, eb, _⟩ := makeByWord_map hne
    have hrange : ∀ k j : Nat, (List.range ws.length)[k]? = some j → j = k := by
      intro k j hk
      obtain ⟨_, e⟩ := List.getElem?_eq_some_iff.1 hk
      rw [List.getElem_range] at e
      exact e.symm
    refine ⟨List.range ws.length, imgs, ⟨ws.map some, d.tables.map fun t => t.vals.map some, List.range ws.length⟩, bw,
      ⟨ws, ⟨d.tables, Ctxs.fresh⟩, bw⟩, ?_, eb, ?_, ⟨by rw [hl], ?_, ?_, rfl, rfl, hl⟩,
      ⟨h.strats, h.rows⟩, hi, hl, hne, eb⟩
    · unfold prepare8
      rw [if_neg h1]
    · unfold tab8
      simp only []
      rw [unmoved_some, Res.ok_bind, columns6_id]
      rfl
    · intro k j hk; rw [hrange k j hk]
    · intro k j hk; rw [hrange k j hk]

end Ppocr

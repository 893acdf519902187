import Verif.Proofs.Text8
import Verif.Props.Reindex
import Verif.Props.DatasIO
import Verif.Props.Glyphs

/-! # C83: the tables of `extract_text8` -/

namespace Ppocr.Props
open Ppocr Spec

/-! ## The order of the glyphs -/

theorem get_strategy1 {d : Datas} (h : d.Fits) : ∃ t ∈ d.tables, d.get strategy1 = t.vals ∧ t.strat = strategy1 := by
  unfold Datas.get
  cases e : d.tables.find? (fun t => decide (t.strat = strategy1)) with
  | some t => exact ⟨t, List.mem_of_find?_eq_some e, rfl, by simpa using List.find?_some e⟩
  | none =>
    exfalso
    have hm : strategy1 ∈ d.tables.map Table.strat := by rw [h.strats]; decide
    obtain ⟨t, ht, hs⟩ := List.mem_map.1 hm
    exact absurd hs (by simpa using List.find?_eq_none.1 e t ht)

/-- The value of the column by which the glyphs are sorted. -/
abbrev key8 (d : Datas) (i : Nat) : Nat := ((d.get strategy1).getD i (.num 0)).toNum

theorem ltFirst_ok {d : Datas} (h : d.Fits) {i j : Nat} (hi : i < d.size) (hj : j < d.size) :
    ltFirst d i j = .ok (decide (key8 d i < key8 d j)) := by
  obtain ⟨t, ht, e, hs⟩ := get_strategy1 h
  have hl := h.same t ht
  have hv := h.vals t ht
  have key : ∀ k : Nat, k < d.size → ∃ n, t.vals[k]? = some (.num n) := by
    intro k hk
    have hk' : k < t.vals.length := by omega
    have := hv t.vals[k] (List.getElem_mem _)
    rw [hs] at this
    rw [List.getElem?_eq_getElem hk']
    cases hc : t.vals[k] with
    | num n => exact ⟨n, rfl⟩
    | arr l => rw [hc] at this; simp [Value.Fits, strategy1, Feat.shape] at this
    | alt l => rw [hc] at this; simp [Value.Fits, strategy1, Feat.shape] at this
  obtain ⟨n, hn⟩ := key i hi
  obtain ⟨m, hm⟩ := key j hj
  unfold ltFirst key8
  rw [e, rd_of_getElem? hn, Res.ok_bind, rd_of_getElem? hm, Res.ok_bind, List.getD_eq_getElem?_getD,
    List.getD_eq_getElem?_getD, hn, hm]
  rfl

theorem sort8_ok (S : StdSort) {d : Datas} (h : d.Fits) :
    ∃ idx, sortRes S (ltFirst d) (List.range d.size) = .ok idx ∧ idx.Perm (List.range d.size) ∧
      idx.Pairwise fun a b => ¬ key8 d b < key8 d a := by
  apply sortRes_ok (R := fun a b => key8 d a < key8 d b)
  · intro a ha b hb
    exact ⟨_, ltFirst_ok h (by simpa using ha) (by simpa using hb), by simp⟩
  · intro a _; omega
  · intro a _ b _ c _ h1 h2; omega
  · intro a _ b _ c _ h1 h2 h3 h4; omega

/-! ## The exact outcome -/

theorem uniqueWords_ok (g : LGlyph) : ∃ w, uniqueWords g = .ok w ∧ (w = [] ↔ g.views = []) := by
  obtain ⟨r, e, h⟩ := uniqueBy_words (g.views.map LView.word)
  exact ⟨r, e, by rw [h]; simp⟩

/-- **C83**, what `extract_text8` makes of two glyphs or more. Let `i` be the glyph that comes first in its order. If none of
the others differs from it, or exactly two do, no glyph goes away: the glyphs are permuted, the ones with equal
features included. Otherwise the behaviour is undefined. So nothing is ever merged. -/
theorem C83_exact_partial (S : StdSort) (mv : List Nat → List Nat) (d : Datas) (ws : List Words) (hd : d.Fits)
    (hn : ws.length = d.size) (h1 : 1 < ws.length) (h32 : ws.length < W32) (hw : [] ∉ ws) :
    ∃ i, Least d (.dvdirection, .img90) i ∧
      ((unlikeRows d i = 0 ∨ unlikeRows d i = 2) → ∃ p t, prepare8 S mv d ws = .ok p ∧ makeByWord p.words = .ok t ∧
        p.idx.head? = some i ∧ p.idx.Perm (List.range d.size) ∧
        (unlikeRows d i = 0 → ∀ k j : Nat, p.idx[k]? = some j → p.words[k]? = some ws[j]?) ∧
        ∀ s ∈ p.cols.zip d.tables, ∀ k j : Nat, p.idx[k]? = some j → s.1[k]? = some s.2.vals[j]?) ∧
      (unlikeRows d i ≠ 0 → unlikeRows d i ≠ 2 →
        (do let p ← prepare8 S mv d ws; makeByWord p.words) = .ub) := by
  obtain ⟨idx, es, hp, hs⟩ := sort8_ok S hd
  have hlen : idx.length = d.size := by rw [hp.length_eq, List.length_range]
  have hmem : ∀ x, x ∈ idx ↔ x < d.size := fun x => by rw [hp.mem_iff, List.mem_range]
  obtain ⟨i, js, rfl⟩ : ∃ i js, idx = i :: js := by
    cases idx with
    | nil => simp at hlen; omega
    | cons i js => exact ⟨i, js, rfl⟩
  have hrows : ∀ a ∈ i :: js, ∀ b ∈ i :: js, HasRows d.tables a b := by
    intro a ha b hb t ht
    have := hd.same t ht
    have h1 := (hmem a).1 ha
    have h2 := (hmem b).1 hb
    omega
  obtain ⟨vs, em, km, um⟩ := mergeFrom_ok (mv := mv) hrows ((i :: js).length + 1) 0 ⟨ws, []⟩ i (by omega) rfl
    (by intro x hx; have := (hmem x).1 hx; simp only []; omega)
  simp only [List.nil_append, Nat.zero_add, List.drop_succ_cons, List.drop_zero] at em um
  have hkv : vs.length = d.size := km.len.trans hn
  have hvne : [] ∉ vs := by
    intro h
    obtain ⟨k, hk⟩ := List.getElem?_of_mem h
    refine km.ne k ?_ hk
    intro h0
    exact hw (List.mem_of_getElem? h0)
  generalize hD : unlike (fun j => decide (row d.tables j = row d.tables i)) js 1 = D at em um
  have hcount : D.length = unlikeRows d i := by
    rw [← hD, unlike_length, unlikeRows, ← hp.countP_eq, List.countP_cons]
    simp
  have hDs : D.Pairwise (· < ·) := by rw [← hD]; exact unlike_sorted _ _ _
  have hDb : ∀ x ∈ D, 1 ≤ x ∧ x < d.size := by
    intro x hx
    rw [← hD] at hx
    have := unlike_bounds _ _ _ _ hx
    simp only [List.length_cons] at hlen
    omega
  have hfold : prepare8 S mv d ws = (do
      let idx ← dropDups D (i :: js)
      let w ← reindex [] idx vs
      let cols ← reindexTables idx d.tables
      return ⟨w, cols, idx⟩) := by
    unfold prepare8
    simp only []
    rw [if_pos h1, Nat.mod_eq_of_lt (by omega : d.size < W32), List.length_range, decide_eq_true rfl, assert_true, Res.ok_bind, es, Res.ok_bind,
      em, Res.ok_bind]
  have good : dropDups D (i :: js) = .ok (i :: js) → ∃ p t, prepare8 S mv d ws = .ok p ∧ makeByWord p.words = .ok t ∧
      p.idx.head? = some i ∧ p.idx.Perm (List.range d.size) ∧
      (∀ k j : Nat, p.idx[k]? = some j → p.words[k]? = some vs[j]?) ∧
      ∀ s ∈ p.cols.zip d.tables, ∀ k j : Nat, p.idx[k]? = some j → s.1[k]? = some s.2.vals[j]? := by
    intro hdrop
    obtain ⟨r, er, rl, rk, rp⟩ := C54_reindex [] (i :: js) vs (by rw [hkv]; exact hp)
    obtain ⟨cs, ec, hc⟩ : ∃ cs, reindexTables (i :: js) d.tables = .ok cs ∧ ∀ s ∈ cs.zip d.tables, ∀ k j : Nat,
        (i :: js)[k]? = some j → s.1[k]? = some s.2.vals[j]? := by
      have : ∀ ts : List Table, (∀ t ∈ ts, t.vals.length = d.size) → ∃ cs, reindexTables (i :: js) ts = .ok cs ∧
          ∀ s ∈ cs.zip ts, ∀ k j : Nat, (i :: js)[k]? = some j → s.1[k]? = some s.2.vals[j]? := by
        intro ts
        induction ts with
        | nil => intro _; exact ⟨[], rfl, by simp⟩
        | cons t ts ih =>
          intro h
          obtain ⟨r, e, rl, rk, _⟩ := C54_reindex (.num 0) (i :: js) t.vals (by rw [h t (by simp)]; exact hp)
          obtain ⟨cs, e2, h2⟩ := ih (fun u hu => h u (by simp [hu]))
          refine ⟨r.map some :: cs, by rw [reindexTables, e, Res.ok_bind, e2]; rfl, ?_⟩
          intro s hs k j hk
          rw [List.zip_cons_cons, List.mem_cons] at hs
          rcases hs with rfl | hs
          · have hj : j < t.vals.length := by
              rw [h t (by simp)]
              exact (hmem j).1 (List.mem_of_getElem? hk)
            simp only [List.getElem?_map, rk k j hk, List.getElem?_eq_getElem hj, Option.map_some]
          · exact h2 s hs k j hk
      exact this d.tables hd.same
    obtain ⟨t, et⟩ := makeByWord_ok (gs := r.map some) (by
      intro g hg
      obtain ⟨v, hv, rfl⟩ := List.mem_map.1 hg
      cases v with
      | nil => exact absurd (rp.mem_iff.1 hv) hvne
      | cons w v => exact ⟨w, v, rfl⟩)
    refine ⟨⟨r.map some, cs, i :: js⟩, t, ?_, et, rfl, hp, ?_, hc⟩
    · rw [hfold, hdrop, Res.ok_bind, er, Res.ok_bind, ec]; rfl
    · intro k j hk
      have hj : j < vs.length := by
        rw [hkv]
        exact (hmem j).1 (List.mem_of_getElem? hk)
      simp only [List.getElem?_map, rk k j hk, List.getElem?_eq_getElem hj, Option.map_some]
  have bad : D.length ≠ 0 → D.length ≠ 2 → (do let p ← prepare8 S mv d ws; makeByWord p.words) = .ub := by
    intro h0 h2
    rw [hfold]
    match D, h0, h2, hDs, hDb with
    | [], h0, _, _, _ => exact absurd rfl h0
    | [a], _, _, _, _ => rw [dropDups_one]; rfl
    | [_, _], _, h2, _, _ => exact absurd rfl h2
    | a :: c :: e :: l, _, _, hDs, hDb =>
      rcases dropDups_more hDs (fun x hx => by rw [hlen]; exact (hDb x hx).2) with h | ⟨idx', h, hl', hm', hnd⟩
      · rw [h]; rfl
      · have hlt : ∀ x ∈ idx', x < vs.length := fun x hx => by rw [hkv]; exact (hmem x).1 (hm' x hx)
        obtain ⟨r, er, _, _, hr⟩ := moveLoop_repeats idx' 0 (vs.map some) (List.replicate vs.length (some []))
          (by simp; omega) (by simpa using hlt)
        obtain ⟨cs, ec⟩ := reindexTables_ok (hl'.trans hlen) (fun x hx => by rw [← hkv]; exact hlt x hx) d.tables hd.same
        rw [h, Res.ok_bind, reindex, er, Res.ok_bind, ec]
        exact makeByWord_ub (.inl (hr (.inl hnd)))
  refine ⟨i, ⟨(hmem i).1 (by simp), ?_⟩, ?_, ?_⟩
  · intro j hj
    have hji : j ∈ i :: js := (hmem j).2 hj
    rcases List.mem_cons.1 hji with rfl | hjs
    · omega
    · have := List.rel_of_pairwise_cons hs hjs
      unfold key8 strategy1 at this
      omega
  · intro hc
    rw [← hcount] at hc ⊢
    have hdrop : dropDups D (i :: js) = .ok (i :: js) := by
      match D, hc, hDs, hDb with
      | [], _, _, _ => rfl
      | [_], hc, _, _ => simp at hc
      | [a, b], _, hDs, hDb => exact dropDups_two (List.rel_of_pairwise_cons hDs (by simp)) (by rw [hlen]; exact (hDb b (by simp)).2)
      | _ :: _ :: _ :: _, hc, _, _ => simp at hc
    obtain ⟨p, t, a1, a2, a3, a4, a5, a6⟩ := good hdrop
    refine ⟨p, t, a1, a2, a3, a4, ?_, a6⟩
    intro h0 k j hk
    rw [a5 k j hk]
    rw [um (List.eq_nil_of_length_eq_zero h0)]
  · rw [← hcount]; exact bad

/-- **C83** as stated: `extract_text8` merges the glyphs with the same features, and only these. Afterwards no two glyphs
have the same features, and every word of a glyph belongs to the glyph with its features. -/
def C83_statement : Prop :=
  ∀ (S : StdSort) (mv : List Nat → List Nat) (d : Datas) (ws : List Words), d.Fits → ws.length = d.size → ws.length < W32 → [] ∉ ws →
    ∃ p, prepare8 S mv d ws = .ok p ∧
      (∀ k l i j : Nat, p.idx[k]? = some i → p.idx[l]? = some j → row d.tables i = row d.tables j → k = l) ∧
      ∀ (i : Nat) (v : Words) (w : List Nat), ws[i]? = some v → w ∈ v → ∃ (k j : Nat) (u : Words), p.idx[k]? = some j ∧
        row d.tables j = row d.tables i ∧ p.words[k]? = some (some u) ∧ w ∈ u

/-- The number of glyphs does not depend on the first one when all features are different. -/
theorem unlikeRows_distinct {d : Datas} (h : ∀ i j, i < d.size → j < d.size → i ≠ j → row d.tables i ≠ row d.tables j)
    {i : Nat} (hi : i < d.size) : unlikeRows d i = d.size - 1 := by
  have h1 : ∀ l : List Nat, (∀ j ∈ l, j < d.size) → l.countP (fun j => decide (row d.tables j ≠ row d.tables i)) =
      l.countP fun j => !decide (j = i) := by
    intro l hl
    apply List.countP_congr
    intro j hj
    by_cases e : j = i
    · subst e; simp
    · simp [e, h j i (hl j hj) hi e]
  unfold unlikeRows
  rw [h1 _ (by simp)]
  have h2 := List.length_eq_countP_add_countP (fun j => decide (j = i)) (l := List.range d.size)
  have h3 : (List.range d.size).countP (fun j => decide (j = i)) = 1 := by
    have := List.Nodup.count (a := i) (List.nodup_range (n := d.size))
    rw [if_pos (List.mem_range.2 hi)] at this
    rw [← this, List.count_eq_countP]
    apply List.countP_congr
    intro j _
    simp
  rw [List.length_range, h3] at h2
  have h4 : (List.range d.size).countP (fun j => !decide (j = i)) =
      (List.range d.size).countP (fun a => decide ¬decide (a = i) = true) := by
    apply List.countP_congr
    intro j _
    simp
  omega

/-- Two glyphs, or more than three, all with different features: undefined, whatever the sort. -/
theorem C83_distinct (S : StdSort) (mv : List Nat → List Nat) (d : Datas) (ws : List Words) (hd : d.Fits)
    (hn : ws.length = d.size) (h32 : ws.length < W32) (hw : [] ∉ ws)
    (hdiff : ∀ i j, i < d.size → j < d.size → i ≠ j → row d.tables i ≠ row d.tables j) (h2 : 2 ≤ d.size) (h3 : d.size ≠ 3) :
    (do let p ← prepare8 S mv d ws; makeByWord p.words) = .ub := by
  obtain ⟨i, hi, _, hbad⟩ := C83_exact_partial S mv d ws hd hn (by omega) h32 hw
  have := unlikeRows_distinct hdiff hi.1
  exact hbad (by omega) (by omega)

theorem allWords_ok : ∀ gs : List LGlyph, (∀ g ∈ gs, g.views ≠ []) →
    ∃ ws, allWords gs = .ok ws ∧ ws.length = gs.length ∧ [] ∉ ws := by
  intro gs
  induction gs with
  | nil => intro _; exact ⟨[], rfl, rfl, by simp⟩
  | cons g gs ih =>
    intro h
    obtain ⟨w, e, hw⟩ := uniqueWords_ok g
    obtain ⟨ws, e2, hl, hn⟩ := ih (fun x hx => h x (by simp [hx]))
    refine ⟨w :: ws, by rw [allWords, e, Res.ok_bind, e2]; rfl, by simp [hl], ?_⟩
    rw [List.mem_cons, not_or]
    exact ⟨fun h0 => h g (by simp) (hw.1 h0.symm), hn⟩

/-- **C83** for the files that the learning tools write, with a dictionary that can be read or none: on two pictures, or more
than three, whose features all differ, `extract_text8` does not get to the image. -/
theorem C83_program (S : StdSort) (mv : List Nat → List Nat) (f : ProgFiles) (gs : List LGlyph) (d : Datas) (E : List FNode)
    (tg : List Nat) (hg : ∀ g ∈ gs, g.Good) (hv : ∀ g ∈ gs, g.views ≠ []) (hs : ∀ g ∈ gs, Sized g.img)
    (hlt : gs.length < W32) (hd : Datas.empty.loadAll (gs.map LGlyph.img) = .ok d)
    (ht : glyphsWrite gs = .ok tg) (hfg : f.glyphs = some tg) (hfd : f.datas = some (datasWrite d))
    (hE : loadDict f.dict = .ok E)
    (hdiff : ∀ i j, i < gs.length → j < gs.length → i ≠ j → row d.tables i ≠ row d.tables j)
    (h2 : 2 ≤ gs.length) (h3 : gs.length ≠ 3) : tables8 S mv f = .ub := by
  obtain ⟨hfit, hsz⟩ := loaded_fits (by simpa using hs) (by simp only [List.length_map, W32] at *; omega) hd
  rw [List.length_map] at hsz
  obtain ⟨t, e1, e2⟩ := C46_round_trip gs [] hg
  rw [ht, Res.ok.injEq] at e1
  subst e1
  obtain ⟨ws, ew, hl, hne⟩ := allWords_ok gs hv
  have hload : loadDatas f.datas = .ok ⟨d.tables, Ctxs.fresh⟩ := by
    rw [hfd]
    unfold loadDatas openText
    simp only [Res.ok_bind]
    rw [datasRead_write hfit]
    rfl
  have hlg : loadLGlyphs f.glyphs = .ok gs := by
    rw [hfg]
    unfold loadLGlyphs openText
    simp only [Res.ok_bind]
    rw [e2]
    rfl
  have hsz' : (⟨d.tables, Ctxs.fresh⟩ : Datas).size = gs.length := hsz
  unfold tables8
  rw [hE, Res.ok_bind, hload, Res.ok_bind, hlg, Res.ok_bind, if_neg (by rw [hsz']; simp), ew, Res.ok_bind]
  have := C83_distinct S mv ⟨d.tables, Ctxs.fresh⟩ ws ⟨hfit.strats, hfit.size, hfit.same, hfit.vals⟩ (hl.trans hsz'.symm)
    (by omega) hne (by rw [hsz']; exact hdiff) (by omega) (by omega)
  cases hp : prepare8 S mv ⟨d.tables, Ctxs.fresh⟩ ws with
  | ok p =>
    rw [hp, Res.ok_bind] at this
    rw [Res.ok_bind, this]; rfl
  | ub => rfl
  | throw => rw [hp] at this; cases this
  | abort => rw [hp] at this; cases this
  | diverge => rw [hp] at this; cases this

/-! ## Concrete tables -/

/-- A value of a column that tells the number `k`. -/
def markOf (k : Nat) : Shape → Value
  | .num => .num k
  | .arr n => .arr (List.replicate n k)
  | .vec => .arr [k]
  | .alt n => .alt (List.replicate n (true, k))

/-- A table with a row for each number of `ks`. -/
def rows8 (ks : List Nat) : Datas :=
  ⟨(simpleStrats ++ complexStrats ++ exclusiveStrats).map fun s => ⟨s, ks.map fun k => markOf k s.1.shape⟩, Ctxs.fresh⟩

theorem rows8_size (ks : List Nat) : (rows8 ks).size = ks.length := by simp [rows8, Datas.size, simpleStrats]

theorem rows8_fits {ks : List Nat} (h : ∀ k ∈ ks, k < W32) (hl : ks.length ≤ maxS) : (rows8 ks).Fits := by
  refine ⟨by simp [rows8, Function.comp_def], by rw [rows8_size]; exact hl, ?_, ?_⟩
  · intro t ht
    rw [rows8_size]
    obtain ⟨s, _, rfl⟩ := List.mem_map.1 ht
    simp
  · intro t ht v hv
    obtain ⟨s, _, rfl⟩ := List.mem_map.1 ht
    obtain ⟨k, hk, rfl⟩ := List.mem_map.1 hv
    have := h k hk
    simp only []
    cases s.1.shape with
    | num => exact ⟨rfl, this⟩
    | arr n => exact ⟨.inl (by simp), fun x hx => (List.eq_of_mem_replicate hx) ▸ this⟩
    | vec => exact ⟨.inr ⟨rfl, by simp [maxS]⟩, by simpa using this⟩
    | alt n => exact ⟨by simp, fun x hx => (List.eq_of_mem_replicate hx) ▸ this⟩

/-- **C83** is false: two glyphs with the same features stay two, and two with different ones are undefined. -/
theorem C83_wrong : ¬ C83_statement := by
  intro h
  obtain ⟨p, hp, h1, _⟩ := h insertionSort (fun _ => []) (rows8 [7, 7]) [[[97]], [[98]]] (rows8_fits (by decide) (by decide))
    (by decide) (by decide) (by decide)
  have e : prepare8 insertionSort (fun _ => []) (rows8 [7, 7]) [[[97]], [[98]]] =
      .ok ⟨[some [[97]], some [[98]]], (rows8 [7, 7]).tables.map fun t => t.vals.map some, [0, 1]⟩ := by decide +kernel
  rw [e, Res.ok.injEq] at hp
  subst hp
  exact absurd (h1 0 1 0 1 rfl rfl (by decide +kernel)) (by decide)

/-- Glyphs `a`, `b` and `c` with three different features: none goes away, but `b` also gets the word of `a`, `c` those of
both, and `a` and `b` lose their words. -/
example : (do
    let p ← prepare8 insertionSort (fun _ => []) (rows8 [1, 2, 3]) [[[97]], [[98]], [[99]]]
    return (p.words, p.idx)) = .ok ([some [[]], some [[], []], some [[97], [98], [99]]], [0, 1, 2]) := by decide +kernel

/-- Two different glyphs. -/
example : prepare8 insertionSort (fun _ => []) (rows8 [1, 2]) [[[97]], [[98]]] = .ub := by decide +kernel

/-- Four different glyphs: index 2 comes twice, so the last glyph has no view left when `front()` is asked for. -/
example : (do
    let p ← prepare8 insertionSort (fun _ => []) (rows8 [1, 2, 3, 4]) [[[97]], [[98]], [[99]], [[100]]]
    return (p.words.map Option.isSome, p.idx)) = .ok ([true, true, true, false], [0, 1, 2, 2]) := by decide +kernel

/-- `C83_distinct` on the same four glyphs, for every sort. -/
example (S : StdSort) (mv : List Nat → List Nat) : (do
    let p ← prepare8 S mv (rows8 [1, 2, 3, 4]) [[[97]], [[98]], [[99]], [[100]]]
    makeByWord p.words) = .ub := by
  have h : ∀ i < 4, ∀ j < 4, i ≠ j → row (rows8 [1, 2, 3, 4]).tables i ≠ row (rows8 [1, 2, 3, 4]).tables j := by
    decide +kernel
  exact C83_distinct S mv _ _ (rows8_fits (by decide) (by decide)) (by decide) (by decide) (by decide) (fun i j hi hj => h i hi j hj)
    (by decide) (by decide)

end Ppocr.Props

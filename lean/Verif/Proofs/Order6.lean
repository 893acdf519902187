import Verif.Proofs.Read6
import Verif.Props.Reindex

/-! # Helper lemmas: the order of the glyphs in `extract_text6` -/

namespace Ppocr
open Spec Props

theorem unmoved_some {α : Type} : ∀ l : List α, unmoved (l.map some) = .ok l := by
  intro l
  induction l with
  | nil => rfl
  | cons a l ih => rw [List.map_cons, unmoved, ih]; rfl

theorem learnt_fits {imgs : List Image} {d : Datas} (h : Learnt imgs d) (hi : ∀ i ∈ imgs, Sized i) (hn : imgs.length < W32) :
    d.Fits ∧ d.size = imgs.length := by
  have hsize : d.size = imgs.length := by
    unfold Datas.size
    cases hd : d.tables with
    | nil => have := h.strats; rw [hd] at this; cases this
    | cons u us => simp only []; rw [(h.rows u (by rw [hd]; simp)).1]
  refine ⟨⟨h.strats, ?_, ?_, ?_⟩, hsize⟩
  · rw [hsize]
    simp only [maxS, W32] at *
    omega
  · intro t ht
    rw [(h.rows t ht).1, hsize]
  · intro t ht v hm
    obtain ⟨hl, hk⟩ := h.rows t ht
    obtain ⟨k, hk1, hk2⟩ := List.mem_iff_getElem.1 hm
    obtain ⟨i, hi'⟩ : ∃ i, imgs[k]? = some i := ⟨imgs[k]'(by omega), List.getElem?_eq_getElem (by omega)⟩
    obtain ⟨r, hr, _⟩ := (hi i (List.mem_of_getElem? hi')).rotate
    obtain ⟨v', h1, h2⟩ := hk k i r hi' hr
    rw [List.getElem?_eq_getElem hk1, Option.some.injEq, hk2] at h1
    subst h1
    exact feature_fits h2

theorem columns6_ok {n : Nat} {idx : List Nat} (hp : idx.Perm (List.range n)) : ∀ ts : List Table, (∀ t ∈ ts, t.vals.length = n) →
    ∃ cs ts', reindexTables idx ts = .ok cs ∧ columns6 ts cs = .ok ts' ∧ ts'.map Table.strat = ts.map Table.strat ∧
      ∀ t' ∈ ts', ∃ t ∈ ts, t'.strat = t.strat ∧ t'.vals.length = n ∧ ∀ k j : Nat, idx[k]? = some j → t'.vals[k]? = t.vals[j]? := by
  intro ts
  induction ts with
  | nil => intro _; exact ⟨[], [], rfl, rfl, rfl, by simp⟩
  | cons t ts ih =>
    intro h
    obtain ⟨r, e, rl, rk, _⟩ := C54_reindex (.num 0) idx t.vals (by rw [h t (by simp)]; exact hp)
    obtain ⟨cs, ts', e1, e2, e3, e4⟩ := ih fun u hu => h u (by simp [hu])
    refine ⟨r.map some :: cs, ⟨t.strat, r⟩ :: ts', by rw [reindexTables, e, Res.ok_bind, e1]; rfl,
      by rw [columns6, unmoved_some, Res.ok_bind, e2]; rfl, by rw [List.map_cons, List.map_cons, e3], ?_⟩
    intro t' ht'
    rcases List.mem_cons.1 ht' with rfl | ht'
    · exact ⟨t, by simp, rfl, rl.trans (h t (by simp)), rk⟩
    · obtain ⟨u, hu, h1⟩ := e4 t' ht'
      exact ⟨u, by simp [hu], h1⟩

/-- The pictures and words of the second lists are those of the first in the order of `idx`. -/
structure Moved6 (idx : List Nat) (imgs : List Image) (ws : List Words) (imgs' : List Image) (ws' : List Words) : Prop where
  perm : idx.Perm (List.range imgs.length)
  img : ∀ k j : Nat, idx[k]? = some j → imgs'[k]? = imgs[j]?
  word : ∀ k j : Nat, idx[k]? = some j → ws'[k]? = ws[j]?
  ilen : imgs'.length = imgs.length
  words : ws'.length = ws.length
  len : ws.length = imgs.length

theorem order6_ok (S : StdSort) {imgs : List Image} {d : Datas} {ws : List Words} (h : Learnt imgs d) (hi : ∀ i ∈ imgs, Sized i)
    (hl : ws.length = imgs.length) (hne : [] ∉ ws) (hn : imgs.length + 63 < W32) :
    ∃ idx imgs' ws' d', order6 S d ws = .ok (ws', d') ∧ Moved6 idx imgs ws imgs' ws' ∧ Learnt imgs' d' ∧
      (∀ i ∈ imgs', Sized i) ∧ [] ∉ ws' ∧ (d'.col strategy1).Pairwise (· ≤ ·) := by
  obtain ⟨hf, hsz⟩ := learnt_fits h hi (by omega)
  obtain ⟨idx, es, hp, hs⟩ := sort8_ok S hf
  rw [hsz] at es hp
  obtain ⟨w, ew, wl, wk, wp⟩ := C54_reindex [] idx ws (by rw [hl]; exact hp)
  obtain ⟨cs, ts', ec, et, h1, h2⟩ := columns6_ok hp d.tables (fun t ht => by rw [hf.same t ht, hsz])
  obtain ⟨imgs', _, il, ik, ip⟩ := C54_reindex (⟨⟨0, 0⟩, []⟩ : Image) idx imgs hp
  have hlen : idx.length = imgs.length := by rw [hp.length_eq, List.length_range]
  have hi' : ∀ i ∈ imgs', Sized i := fun i hm => hi i (ip.mem_iff.1 hm)
  have hL : Learnt imgs' ⟨ts', Ctxs.fresh⟩ := by
    refine ⟨h1.trans h.strats, ?_⟩
    intro t' ht'
    obtain ⟨t, ht, e1, e2, e3⟩ := h2 t' ht'
    refine ⟨e2.trans il.symm, ?_⟩
    intro k i r hk hr
    have hk' : k < idx.length := by rw [hlen, ← il]; exact (List.getElem?_eq_some_iff.1 hk).1
    have hx := List.getElem?_eq_getElem hk'
    obtain ⟨v, hv, hfv⟩ := (h.rows t ht).2 _ i r (by rw [← ik k _ hx]; exact hk) hr
    exact ⟨v, by rw [e3 k _ hx]; exact hv, by rw [e1]; exact hfv⟩
  refine ⟨idx, imgs', w, ⟨ts', Ctxs.fresh⟩, ?_, ⟨hp, ik, wk, il, wl, hl⟩, hL, hi', fun hm => hne (wp.mem_iff.1 hm), ?_⟩
  · unfold order6
    simp only []
    rw [hsz, Nat.mod_eq_of_lt (by omega : imgs.length < W32), List.length_range, decide_eq_true rfl, assert_true, Res.ok_bind, es,
      Res.ok_bind, ew, Res.ok_bind, unmoved_some, Res.ok_bind, ec, Res.ok_bind, et, Res.ok_bind]
    rfl
  · have h1s : strategy1 ∈ simpleStrats := by decide
    have hkey : ∀ j i ri, imgs[j]? = some i → i.rotate90 = .ok ri → feature strategy1 i ri = .ok (.num (key8 d j)) := by
      intro j i ri hj hri
      have := col_entry h hi h1s hj hri
      rw [this]
      unfold Datas.col key8
      rw [List.getD_eq_getElem?_getD, List.getD_eq_getElem?_getD, List.getElem?_map]
      cases (d.get strategy1)[j]? <;> rfl
    have hcol : (⟨ts', Ctxs.fresh⟩ : Datas).col strategy1 = idx.map (key8 d) := by
      have hcl := (col_le hL hi' h1s).1
      apply List.ext_getElem (by rw [hcl, List.length_map, hlen, il])
      intro k hk1 hk2
      have hk' : k < idx.length := by rw [List.length_map] at hk2; exact hk2
      have hx := List.getElem?_eq_getElem hk'
      have hki : k < imgs'.length := by rw [hcl] at hk1; exact hk1
      have him := List.getElem?_eq_getElem hki
      obtain ⟨ri, hri, _⟩ := (hi' _ (List.getElem_mem hki)).rotate
      have e1 := col_entry hL hi' h1s him hri
      rw [hkey idx[k] _ ri (by rw [← ik k _ hx]; exact him) hri] at e1
      rw [Res.ok.injEq, Value.num.injEq, List.getD_eq_getElem?_getD, List.getElem?_eq_getElem hk1] at e1
      rw [List.getElem_map]
      exact e1.symm
    rw [hcol, List.pairwise_map]
    exact hs.imp fun hab => by omega

/-- The tables get built. -/
theorem tables6_ok (S : StdSort) {imgs : List Image} {d : Datas} {ws : List Words} (h : Learnt imgs d) (hi : ∀ i ∈ imgs, Sized i)
    (hl : ws.length = imgs.length) (hne : [] ∉ ws) (hn : imgs.length + 63 < W32) :
    ∃ idx imgs' ws' d' t, order6 S d ws = .ok (ws', d') ∧ build6 d' ws' = .ok t ∧ Moved6 idx imgs ws imgs' ws' ∧
      Ready6 imgs' ws' d' t := by
  obtain ⟨idx, imgs', ws', d', e, hm, hL, hi', hne', hs⟩ := order6_ok S h hi hl hne hn
  obtain ⟨t, et, hb⟩ := build6_ok (d := d') (ws := ws') (n := imgs'.length) (by rw [hm.ilen]; exact hn)
    (fun s hs => (col_le hL hi' hs).1)
    (fun s hs x hx => by
      have := (col_le hL hi' hs).2 x hx
      have := feat_k s.1
      simp only [W32]
      omega)
    (fun x hx => by
      have := (col_le hL hi' (by decide)).2 x hx
      have hk : strategy1.1.k = 200 := rfl
      omega) hne'
  exact ⟨idx, imgs', ws', d', t, e, et, hm, hL, hi', by rw [hm.words, hl, hm.ilen], hne', by rw [hm.ilen]; exact hn, hs, hb⟩

/-! ## Back to the order of the file -/

section
variable {idx : List Nat} {imgs imgs' : List Image} {ws ws' : List Words}

theorem Moved6.to (m : Moved6 idx imgs ws imgs' ws') {k : Nat} (hk : k < imgs'.length) : ∃ j, idx[k]? = some j ∧ j < imgs.length := by
  have hlen : idx.length = imgs.length := by rw [m.perm.length_eq, List.length_range]
  have hk' : k < idx.length := by rw [hlen, ← m.ilen]; exact hk
  exact ⟨_, List.getElem?_eq_getElem hk', by simpa using m.perm.mem_iff.1 (List.getElem_mem hk')⟩

theorem Moved6.fro (m : Moved6 idx imgs ws imgs' ws') {j : Nat} (hj : j < imgs.length) : ∃ k : Nat, idx[k]? = some j :=
  List.getElem?_of_mem (m.perm.mem_iff.2 (by simpa using hj))

theorem Moved6.inj (m : Moved6 idx imgs ws imgs' ws') {k l j : Nat} (h1 : idx[k]? = some j) (h2 : idx[l]? = some j) : k = l := by
  have hn : idx.Nodup := m.perm.nodup_iff.2 List.nodup_range
  obtain ⟨a, ha⟩ := List.getElem?_eq_some_iff.1 h1
  obtain ⟨b, hb⟩ := List.getElem?_eq_some_iff.1 h2
  exact (List.getElem_inj hn).1 (ha.trans hb.symm)

theorem lt_of_word (m : Moved6 idx imgs ws imgs' ws') {j : Nat} {v : Words} (h : ws'[j]? = some v) : j < imgs'.length := by
  have := (List.getElem?_eq_some_iff.1 h).1
  rw [m.words, m.len, ← m.ilen] at this
  exact this

theorem lt_of_word' (m : Moved6 idx imgs ws imgs' ws') {j : Nat} {v : Words} (h : ws[j]? = some v) : j < imgs.length := by
  have := (List.getElem?_eq_some_iff.1 h).1
  rw [m.len] at this
  exact this

theorem Moved6.match (m : Moved6 idx imgs ws imgs' ws') {a : Image} {k j : Nat} (h : idx[k]? = some j) :
    Match6 imgs' a k ↔ Match6 imgs a j := by
  unfold Match6
  rw [m.img k j h]

theorem Moved6.noMatch (m : Moved6 idx imgs ws imgs' ws') {a : Image} : (∃ k, Match6 imgs' a k) ↔ ∃ j, Match6 imgs a j := by
  constructor
  · rintro ⟨k, hk⟩
    obtain ⟨i, hi, _⟩ := id hk
    obtain ⟨j, hj, _⟩ := m.to (List.getElem?_eq_some_iff.1 hi).1
    exact ⟨j, (m.match hj).1 hk⟩
  · rintro ⟨j, hj⟩
    obtain ⟨i, hi, _⟩ := id hj
    obtain ⟨k, hk⟩ := m.fro (List.getElem?_eq_some_iff.1 hi).1
    exact ⟨k, (m.match hk).2 hj⟩

theorem Moved6.twin (m : Moved6 idx imgs ws imgs' ws') {g j g' j' : Nat} (hg : idx[g']? = some g) (hj : idx[j']? = some j) :
    Twin6 ws' g' j' ↔ Twin6 ws g j := by
  unfold Twin6
  rw [m.word _ _ hg, m.word _ _ hj]
  constructor
  · rintro ⟨h1, h2⟩
    exact ⟨fun e => h1 (m.inj (e ▸ hj) hg), h2⟩
  · rintro ⟨h1, h2⟩
    refine ⟨fun e => h1 ?_, h2⟩
    rw [e, hg, Option.some.injEq] at hj
    exact hj.symm

theorem Moved6.kept (m : Moved6 idx imgs ws imgs' ws') {a : Image} {k j : Nat} (h : idx[k]? = some j) :
    Kept6 imgs' ws' a k ↔ Kept6 imgs ws a j := by
  unfold Kept6
  rw [m.img k j h]
  apply and_congr_right
  intro _
  constructor
  · rintro (h0 | ⟨l, b, h1, h2, h3⟩)
    · left
      intro l hl
      obtain ⟨_, _, u, _, e, _⟩ := id hl
      obtain ⟨l', hl'⟩ := m.fro (lt_of_word' m e)
      exact h0 l' ((m.twin h hl').2 hl)
    · right
      obtain ⟨l', hl', _⟩ := m.to (List.getElem?_eq_some_iff.1 h2).1
      exact ⟨l', b, (m.twin h hl').1 h1, by rw [← m.img _ _ hl']; exact h2, h3⟩
  · rintro (h0 | ⟨l, b, h1, h2, h3⟩)
    · left
      intro l hl
      obtain ⟨_, _, u, _, e, _⟩ := id hl
      obtain ⟨l', hl', _⟩ := m.to (lt_of_word m e)
      exact h0 l' ((m.twin h hl').1 hl)
    · right
      obtain ⟨l', hl'⟩ := m.fro (List.getElem?_eq_some_iff.1 h2).1
      exact ⟨l', b, (m.twin h hl').2 h1, by rw [m.img _ _ hl']; exact h2, h3⟩

theorem Moved6.chosen (m : Moved6 idx imgs ws imgs' ws') {a : Image} {k j : Nat} (h : idx[k]? = some j) :
    Chosen6 imgs' ws' a k ↔ Chosen6 imgs ws a j := by
  unfold Chosen6
  rw [m.match h, m.kept h, ← not_exists, ← not_exists, m.noMatch]

theorem Moved6.reads (m : Moved6 idx imgs ws imgs' ws') {a : Image} {o : Letter6} (h : Reads6 imgs' ws' a o) :
    Reads6 imgs ws a o := by
  refine ⟨?_, h.read, h.unread, ?_, fun he => h.same (m.noMatch.2 he)⟩
  · intro w
    rw [h.words w]
    constructor
    · rintro ⟨g, v, h1, h2, h3⟩
      obtain ⟨j, hj, _⟩ := m.to (lt_of_word m h2)
      exact ⟨j, v, (m.chosen hj).1 h1, by rw [← m.word _ _ hj]; exact h2, h3⟩
    · rintro ⟨g, v, h1, h2, h3⟩
      obtain ⟨j, hj⟩ := m.fro (lt_of_word' m h2)
      exact ⟨j, v, (m.chosen hj).2 h1, by rw [m.word _ _ hj]; exact h2, h3⟩
  · rcases h.first with ⟨g, i, v, h1, h2, h3, h4⟩ | ⟨h1, h2⟩
    · left
      obtain ⟨j, hj, _⟩ := m.to (lt_of_word m h3)
      exact ⟨j, i, v, by rw [← m.img _ _ hj]; exact h1, h2, by rw [← m.word _ _ hj]; exact h3, h4⟩
    · right
      refine ⟨?_, h2⟩
      intro i hi
      obtain ⟨j, hj⟩ := List.getElem?_of_mem hi
      obtain ⟨k, hk⟩ := m.fro (List.getElem?_eq_some_iff.1 hj).1
      exact h1 i (List.mem_of_getElem? (by rw [m.img _ _ hk]; exact hj))

theorem Moved6.jam (m : Moved6 idx imgs ws imgs' ws') {a : Image} (h : Jam6 imgs' ws' a) : Jam6 imgs ws a := by
  obtain ⟨h0, g, i, j, b, h1, h2, h3, h4, h5, h6⟩ := h
  obtain ⟨g', hg, _⟩ := m.to (List.getElem?_eq_some_iff.1 h1).1
  obtain ⟨j', hj, _⟩ := m.to (List.getElem?_eq_some_iff.1 h5).1
  refine ⟨?_, g', i, j', b, by rw [← m.img _ _ hg]; exact h1, h2, h3, (m.twin hg hj).1 h4, by rw [← m.img _ _ hj]; exact h5, h6⟩
  rw [← not_exists, ← m.noMatch, not_exists]
  exact h0

end

end Ppocr

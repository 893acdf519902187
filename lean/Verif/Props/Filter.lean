import Verif.Proofs.Filter
import Verif.Proofs.FilterPass

/-! # C35-C38: filters on the candidates of a line -/

namespace Ppocr.Props
open Ppocr Spec

/-! ## C35 -/

/-- **C35**: the returned font is ~0 when no letter is unambiguous, otherwise the most frequent font of the
unambiguous letters (the smallest of these). When it is the only font of these letters, or the font of half
of all the letters, each ambiguous letter is reduced to one of its own candidates, the first of that font or
else the first one. In the other cases nothing changes. Unambiguous and empty letters, and the lists that no
letter uses, never change. -/
theorem C35_font (refs : List Nat) (st : List (List View)) (hr : RefsOk refs st) (hn : refs.length < W32) :
    ∃ f st', filterByFont refs st = .ok (f, st') ∧
      ((∀ g, fontCount refs st g = 0) → f = 4294967295 ∧ st' = st) ∧
      ((∃ g, 0 < fontCount refs st g) →
        0 < fontCount refs st f ∧
        (∀ g, fontCount refs st g ≤ fontCount refs st f) ∧
        (∀ g, fontCount refs st g = fontCount refs st f → f ≤ g) ∧
        (¬ Dominant refs st f → st' = st) ∧
        (Dominant refs st f → st'.length = st.length ∧ (∀ r, r ∉ refs → st'[r]? = st[r]?) ∧
          ∀ r ∈ refs, ∃ l l', st[r]? = some l ∧ st'[r]? = some l' ∧ Reduced f l l')) := by
  obtain ⟨m, e1, e2, e3⟩ := countFonts_ok st refs [] hr ⟨List.Pairwise.nil, fun e h => absurd h (by simp)⟩
    (fun f => by simp only [mget, Nat.zero_add]; exact hn)
  have e3 : ∀ f, mget f m = fontCount refs st f := fun f => by rw [e3 f]; exact Nat.zero_add _
  unfold filterByFont
  rw [e1, Res.ok_bind]
  match m, e2, e3 with
  | [], e2, e3 =>
    refine ⟨4294967295, st, rfl, fun _ => ⟨rfl, rfl⟩, ?_⟩
    rintro ⟨g, hg⟩
    rw [← e3 g] at hg
    exact absurd hg (by simp [mget])
  | e :: m, e2, e3 =>
    simp only []
    obtain ⟨hm, hmax⟩ := maxFont_ok e m e2.sorted
    have hcnt : fontCount refs st (maxFont e m).1 = (maxFont e m).2 := by
      rw [← e3, mget_of_mem e2.sorted hm]
    have hpos := e2.pos _ hm
    have hother : ∀ g, fontCount refs st g ≤ (maxFont e m).2 ∧
        (fontCount refs st g = (maxFont e m).2 → (maxFont e m).1 ≤ g) := by
      intro g
      by_cases hg : 0 < mget g (e :: m)
      · obtain ⟨n, hgn⟩ := mget_pos hg
        have h1 := mget_of_mem e2.sorted hgn
        rw [e3] at h1
        rw [h1]
        exact hmax _ hgn
      · rw [e3] at hg
        exact ⟨by omega, fun h => by omega⟩
    have hdom : (m = [] ∨ refs.length / 2 ≤ (maxFont e m).2) ↔ Dominant refs st (maxFont e m).1 := by
      unfold Dominant
      rw [hcnt]
      constructor
      · rintro (h | h)
        · left
          subst h
          intro g hg
          rw [← e3 g] at hg
          obtain ⟨n, hgn⟩ := mget_pos hg
          rw [List.mem_singleton] at hgn
          have h2 : maxFont e [] = e := rfl
          rw [h2, ← hgn]
        · exact Or.inr h
      · rintro (h | h)
        · left
          match m with
          | [] => rfl
          | e' :: m' =>
            exfalso
            have k1 : e.1 = (maxFont e (e' :: m')).1 := by
              apply h
              rw [← e3, mget_of_mem e2.sorted (List.mem_cons_self : (e.1, e.2) ∈ e :: e' :: m')]
              exact e2.pos e List.mem_cons_self
            have k2 : e'.1 = (maxFont e (e' :: m')).1 := by
              apply h
              rw [← e3, mget_of_mem (n := e'.2) e2.sorted (List.mem_cons_of_mem _ List.mem_cons_self)]
              exact e2.pos e' (List.mem_cons_of_mem _ List.mem_cons_self)
            have := (List.pairwise_cons.1 e2.sorted).1 e' List.mem_cons_self
            omega
        · exact Or.inr h
    obtain ⟨st', k1, k2, k3, k4⟩ := keepFonts_ok (maxFont e m).1 refs st hr
    by_cases hd : m = [] ∨ refs.length / 2 ≤ (maxFont e m).2
    · rw [if_pos hd, k1, Res.ok_bind]
      refine ⟨_, st', rfl, ?_, ?_⟩
      · intro h0
        have := h0 (maxFont e m).1
        omega
      · intro _
        rw [hcnt]
        refine ⟨hpos, fun g => (hother g).1, fun g => (hother g).2, ?_, ?_⟩
        · intro h; exact absurd (hdom.1 hd) h
        · intro _
          refine ⟨k2, k4, ?_⟩
          intro r hrr
          have hlt := hr r hrr
          refine ⟨st[r], keepFont (maxFont e m).1 st[r], List.getElem?_eq_getElem hlt, ?_, keepFont_reduced _ _⟩
          rw [k3 r hrr, List.getElem?_eq_getElem hlt]
          rfl
    · rw [if_neg hd]
      refine ⟨_, st, rfl, ?_, ?_⟩
      · intro h0
        have := h0 (maxFont e m).1
        omega
      · intro _
        rw [hcnt]
        exact ⟨hpos, fun g => (hother g).1, fun g => (hother g).2, fun _ => rfl,
          fun h => absurd (hdom.2 h) hd⟩

/-- Four letters, two of font 3: the ambiguous ones are resolved, the last letter shares a list. -/
example : filterByFont [0, 1, 2, 1] [[⟨7, 3⟩], [⟨8, 1⟩, ⟨9, 3⟩, ⟨10, 3⟩], []] =
    .ok (3, [[⟨7, 3⟩], [⟨9, 3⟩], []]) := by decide
/-- Two fonts and no majority. -/
example : filterByFont [0, 1, 2, 2] [[⟨7, 3⟩], [⟨7, 2⟩], [⟨8, 1⟩, ⟨9, 3⟩]] =
    .ok (2, [[⟨7, 3⟩], [⟨7, 2⟩], [⟨8, 1⟩, ⟨9, 3⟩]]) := by decide

/-! ## C37 -/

open Classical in
/-- What is claimed of `filter_line`: a list with several words loses exactly the candidates on which the
predicate holds. -/
def C37_statement : Prop :=
  ∀ (p : View → Bool) (l : List View), ByWord p → l.length < W32 →
    ∃ l' n, filterLine (fun v => .ok (p v)) l = .ok (l', n) ∧
      l' = if OneWord l then l else l.filter fun v => !p v

/-- Two words, the second one to remove: it is kept. -/
theorem C37_second_word_kept : filterLine (fun v => .ok (decide (v.word = 2))) [⟨1, 0⟩, ⟨2, 0⟩] =
    .ok ([⟨1, 0⟩, ⟨2, 0⟩], 1) := by decide

theorem C37_wrong_line : ¬ C37_statement := by
  intro h
  obtain ⟨l', n, e1, e2⟩ := h (fun v => decide (v.word = 2)) [⟨1, 0⟩, ⟨2, 0⟩]
    (fun u v huv => by simp only [huv]) (by decide)
  rw [C37_second_word_kept] at e1
  rw [if_neg (fun h => absurd (h ⟨1, 0⟩ (by simp) ⟨2, 0⟩ (by simp)) (by decide))] at e2
  rw [← (Prod.mk.inj (Res.ok.inj e1)).1] at e2
  exact absurd e2 (by decide)

/-- **C37**, what `filter_line` does to every list for a predicate on the words (`LineFiltered`).
Missing: the second word is kept without being examined when the first one is kept, and then the first one
is not counted. -/
theorem C37_line_partial (p : View → Bool) (l : List View) (hp : ByWord p) (hl : l.length < W32) :
    ∃ l' n, filterLine (fun v => .ok (p v)) l = .ok (l', n) ∧ LineFiltered p l l' n :=
  filterLine_ok (fun _ => rfl) hp l hl

/-- **C37** holds when the first word is to be removed or the second one is to be kept. -/
theorem C37_line_when (p : View → Bool) (l g h rest : List View) (hp : ByWord p) (hl : l.length < W32)
    (two : TwoRuns g h rest l) (hc : (∀ v ∈ g, p v = true) ∨ (∀ v ∈ h, p v = false)) :
    ∃ n, filterLine (fun v => .ok (p v)) l = .ok (l.filter (fun v => !p v), n) := by
  obtain ⟨l', n, e, hf⟩ := C37_line_partial p l hp hl
  refine ⟨n, ?_⟩
  rw [e]
  congr 2
  obtain ⟨v, hv⟩ := List.exists_mem_of_ne_nil _ two.g_ne
  obtain ⟨u, hu⟩ := List.exists_mem_of_ne_nil _ two.h_ne
  rcases hf with ⟨h1, _, _⟩ | ⟨g', h', rest', two', ⟨_, h2, _⟩ | ⟨h2, h3, _⟩⟩
  · exfalso
    refine two.differ v hv u hu (h1 v ?_ u ?_)
    · rw [two.eq]; simp [hv]
    · rw [two.eq]; simp [hu]
  · exact h2
  · have gg : g = g' := runs_unique two two'
    subst gg
    rcases hc with hc | hc
    · have := h2 v hv
      rw [hc v hv] at this
      exact absurd this (by simp)
    · have hh : h = h' := runs_unique2 two two'
      subst hh
      have k1 : g.filter (fun v => !p v) = g := List.filter_eq_self.2 (by
        intro x hx; simp [h2 x hx])
      have k2 : h.filter (fun v => !p v) = h := List.filter_eq_self.2 (by
        intro x hx; simp [hc x hx])
      rw [h3, two'.eq, List.filter_append, List.filter_append, k1, k2]

/-- Words 1, 2, 2, 3, 1 without the words 2 and 3; words 1, 2, 3, 4, 5 without 3 and 5. -/
example : filterLine (fun v => .ok (decide (v.word = 1 ∨ v.word = 3)))
    [⟨1, 0⟩, ⟨2, 0⟩, ⟨2, 1⟩, ⟨3, 0⟩, ⟨4, 1⟩] = .ok ([⟨2, 0⟩, ⟨2, 1⟩, ⟨4, 1⟩], 2) := by decide
example : filterLine (fun v => .ok (decide (v.word = 3 ∨ v.word = 5)))
    [⟨1, 0⟩, ⟨2, 0⟩, ⟨3, 1⟩, ⟨4, 0⟩, ⟨5, 1⟩] = .ok ([⟨1, 0⟩, ⟨2, 0⟩, ⟨4, 0⟩], 2) := by decide
/-- A list may become empty. -/
example : filterLine (fun _ => .ok true) [⟨1, 0⟩, ⟨2, 0⟩] = .ok ([], 0) := by decide

/-! ## C36 -/

/-- What is claimed: `filter_by_lines` never fails on the boxes of a line, and its buffer has at most one
cell more than the spread of the boxes. -/
def C36_statement : Prop :=
  ∀ (infos : List WordInfo) (b : Box) (bs : List Box) (refs : List Nat) (st : List (List View)),
    InfosSorted infos → (∀ c ∈ b :: bs, BoxOk c) → (b :: bs).length = refs.length → refs.length < W32 →
    RefsOk refs st → StOk st →
    (∃ st', filterByLines infos (b :: bs) refs st = .ok st') ∧
    ∃ c ∈ b :: bs, ∃ d ∈ b :: bs, (minMaxBox b bs).bufLen ≤ max (c.y - d.y) (c.y + c.h - (d.y + d.h)) + 1

/-- Whenever the first box is lower than all the others by more than the buffer, the first write is outside
of it. -/
theorem C36_out_of_bounds (infos : List WordInfo) (b : Box) (bs : List Box) (refs : List Nat)
    (st : List (List View)) (hlen : (b :: bs).length = refs.length)
    (h : (minMaxBox b bs).bufLen ≤ usub b.bottom (minMaxBox b bs).minBottom) :
    filterByLines infos (b :: bs) refs st = .ub := by
  unfold filterByLines
  rw [decide_eq_true hlen]
  show (do
    let ys ← bumpBottoms (minMaxBox b bs).minBottom (b :: bs) (List.replicate (minMaxBox b bs).bufLen 0)
    _ : Res _) = .ub
  unfold bumpBottoms bumpAt
  rw [rd_of_ge (by rw [List.length_replicate]; exact h)]
  rfl

/-- Two letters, the first one lower than the second: rows 10 to 20 and 0 to 10. -/
theorem C36_first_lowest (infos : List WordInfo) (st : List (List View)) :
    filterByLines infos [⟨0, 10, 5, 11⟩, ⟨20, 0, 5, 11⟩] [0, 1] st = .ub :=
  C36_out_of_bounds infos _ _ _ st rfl (by decide)

/-- One letter on the second row alone: the buffer is empty. -/
theorem C36_one_point (infos : List WordInfo) (st : List (List View)) :
    filterByLines infos [⟨0, 1, 5, 1⟩] [0] st = .ub :=
  C36_out_of_bounds infos _ _ _ st rfl (by decide)

/-- One letter on the rows 10 to 20: the buffer has 4294967287 cells (16 GiB). -/
theorem C36_one_letter : (minMaxBox ⟨0, 10, 5, 11⟩ []).bufLen = 4294967287 := by decide

theorem C36_wrong_memory : ¬ C36_statement := by
  intro h
  obtain ⟨⟨st', e⟩, _⟩ := h [] ⟨0, 10, 5, 11⟩ [⟨20, 0, 5, 11⟩] [0, 1] [[], []] List.Pairwise.nil
    (by
      intro c hc
      simp only [List.mem_cons, List.not_mem_nil, or_false] at hc
      rcases hc with rfl | rfl <;> exact ⟨by decide, by decide⟩) rfl (by decide)
    (by intro r hr; simp at hr; rcases hr with rfl | rfl <;> decide)
    (by intro l hl; simp at hl; subst hl; decide)
  rw [C36_first_lowest] at e
  exact absurd e (by simp)

/-- **C36** when another box is at least as low as the first one, by its bottom and by its top: no access
outside of the buffer, no failure, and the buffer has one cell more than the spread of the tops or of the
bottoms. Missing: the lines whose first letter is the lowest, and lines of one letter. -/
theorem C36_memory_partial (infos : List WordInfo) (b : Box) (bs : List Box) (refs : List Nat)
    (st : List (List View)) (hs : InfosSorted infos) (hb : ∀ c ∈ b :: bs, BoxOk c) (hsp : Spread b bs)
    (hlen : (b :: bs).length = refs.length) (hn : refs.length < W32) (hr : RefsOk refs st) (hst : StOk st) :
    (∃ st', filterByLines infos (b :: bs) refs st = .ok st' ∧ st'.length = st.length) ∧
    ∃ c ∈ b :: bs, ∃ d ∈ b :: bs, (minMaxBox b bs).bufLen ≤ max (c.y - d.y) (c.y + c.h - (d.y + d.h)) + 1 := by
  obtain ⟨st', _, _, _, e, e2, _⟩ := filterByLines_ok infos hs b bs refs st hb hsp hlen hn hr hst
  refine ⟨⟨st', e, e2⟩, ?_⟩
  have R := range_ok b bs hb hsp
  obtain ⟨c, hc, d, hd, e1⟩ := R.topLen
  obtain ⟨c', hc', d', hd', e2⟩ := R.bottomLen
  unfold MinMax.bufLen
  by_cases hle : (minMaxBox b bs).bottomLen ≤ (minMaxBox b bs).topLen
  · refine ⟨c, hc, d, hd, ?_⟩
    rw [Nat.max_eq_right hle, e1]
    omega
  · refine ⟨c', hc', d', hd', ?_⟩
    rw [Nat.max_eq_left (by omega), e2, (hb c' hc').bottom.1, (hb d' hd').bottom.1]
    have := (hb d' hd').1
    omega

/-! ## C38 -/

/-- What is claimed: letters that show the same picture, hence share a candidate list, are left with the
candidates they would have if each had its own copy of the list. -/
def C38_statement : Prop :=
  ∀ (infos : List WordInfo) (boxes : List Box) (refs : List Nat) (st st' st2 : List (List View)),
    InfosSorted infos → RefsOk refs st →
    filterByLines infos boxes refs st = .ok st' →
    filterByLines infos boxes (List.range refs.length) (refs.map fun r => st.getD r []) = .ok st2 →
    ∀ (k r : Nat), refs[k]? = some r → st'[r]? = st2[k]?

/-- Words 1 (a comma, below the baseline), 2 (an apostrophe, above it) and 3 (a letter on the baseline). -/
def quoteInfos : List WordInfo := [⟨1, ⟨0, 0, 0, 4⟩⟩, ⟨2, ⟨0, 0, 0, 1⟩⟩, ⟨3, ⟨0, 0, 2, 2⟩⟩]

/-- The line `xx',` : rows 10 to 20 for each x, then 5 to 8, then 19 to 22. -/
def quoteBoxes : List Box := [⟨0, 10, 5, 11⟩, ⟨10, 10, 5, 11⟩, ⟨20, 5, 2, 4⟩, ⟨30, 19, 2, 4⟩]

/-- The two signs are the same picture: with a shared list the comma is left with the apostrophe only, with
its own list it keeps the comma. -/
theorem C38_shared_list :
    filterByLines quoteInfos quoteBoxes [0, 0, 1, 1] [[⟨3, 0⟩], [⟨1, 0⟩, ⟨2, 0⟩]] =
      .ok [[⟨3, 0⟩], [⟨2, 0⟩]] ∧
    filterByLines quoteInfos quoteBoxes [0, 1, 2, 3] [[⟨3, 0⟩], [⟨3, 0⟩], [⟨1, 0⟩, ⟨2, 0⟩], [⟨1, 0⟩, ⟨2, 0⟩]] =
      .ok [[⟨3, 0⟩], [⟨3, 0⟩], [⟨2, 0⟩], [⟨1, 0⟩, ⟨2, 0⟩]] := by decide

theorem C38_wrong_position : ¬ C38_statement := by
  intro h
  have := h quoteInfos quoteBoxes [0, 0, 1, 1] [[⟨3, 0⟩], [⟨1, 0⟩, ⟨2, 0⟩]] _ _
    (by unfold InfosSorted; decide) (by unfold RefsOk; decide) C38_shared_list.1 C38_shared_list.2 3 1 rfl
  exact absurd this (by decide)

open Classical in
/-- **C38** when no picture is repeated: the candidates kept for a letter follow from its own list, its own
box, the baseline and the meanline. The baseline is the most frequent bottom; the meanline is the most
frequent top of the letters left with a count of one and declared to sit on both lines, and no candidate is
removed by it when there is none. Missing: repeated pictures, and the lines of `C36_memory_partial`. -/
theorem C38_position_partial (infos : List WordInfo) (b : Box) (bs : List Box) (refs : List Nat)
    (st : List (List View)) (hs : InfosSorted infos) (hb : ∀ c ∈ b :: bs, BoxOk c) (hsp : Spread b bs)
    (hlen : (b :: bs).length = refs.length) (hn : refs.length < W32) (hr : RefsOk refs st) (hst : StOk st)
    (hnd : refs.Nodup) :
    ∃ st' baseline mean, ∃ mids : List (List View × Nat),
      filterByLines infos (b :: bs) refs st = .ok st' ∧
      IsMode ((b :: bs).map Box.bottom) baseline ∧
      (meanTops infos (b :: bs) mids ≠ [] → IsMode (meanTops infos (b :: bs) mids) mean) ∧
      (∀ r, r ∉ refs → st'[r]? = st[r]?) ∧
      ∀ (k r : Nat) (c : Box), refs[k]? = some r → (b :: bs)[k]? = some c →
        ∃ v mid n, st[r]? = some v ∧ mids[k]? = some (mid, n) ∧
          LineFiltered (fun x => decide (Wrong infos WordLines.base c.bottom baseline x)) v mid n ∧
          (meanTops infos (b :: bs) mids = [] → st'[r]? = some mid) ∧
          (meanTops infos (b :: bs) mids ≠ [] → ∃ l n', st'[r]? = some l ∧
            LineFiltered (fun x => decide (Wrong infos WordLines.mean c.y mean x)) mid l n') := by
  obtain ⟨st', baseline, mean, mids, h1, _, h2, _, h3, h4, h5⟩ :=
    filterByLines_ok infos hs b bs refs st hb hsp hlen hn hr hst
  refine ⟨st', baseline, mean, mids, h1, h2, h3, h4, ?_⟩
  intro k r c hk hc
  obtain ⟨v, mid, n, i1, i2, _, i3, i4, i5⟩ := h5 hnd k r c hk hc
  refine ⟨v, mid, n, i1, i2, i3, i4, ?_⟩
  intro h
  obtain ⟨l, n', j1, _, j2⟩ := i5 h
  exact ⟨l, n', j1, j2⟩

/-- The claim itself, for lines without a repeated picture. -/
theorem C38_own_copy (infos : List WordInfo) (b : Box) (bs : List Box) (refs : List Nat)
    (st : List (List View)) (hs : InfosSorted infos) (hb : ∀ c ∈ b :: bs, BoxOk c) (hsp : Spread b bs)
    (hlen : (b :: bs).length = refs.length) (hn : refs.length < W32) (hr : RefsOk refs st) (hst : StOk st)
    (hnd : refs.Nodup) :
    ∃ st' st2, filterByLines infos (b :: bs) refs st = .ok st' ∧
      filterByLines infos (b :: bs) (List.range refs.length) (refs.map fun r => st.getD r []) = .ok st2 ∧
      ∀ (k r : Nat), refs[k]? = some r → st'[r]? = st2[k]? := by
  obtain ⟨st', base, mean, mids, h1, _, h2, h2', h3, h4, h5⟩ :=
    filterByLines_ok infos hs b bs refs st hb hsp hlen hn hr hst
  obtain ⟨st2, base2, mean2, mids2, g1, _, g2, g2', g3, g4, g5⟩ :=
    filterByLines_ok infos hs b bs (List.range refs.length) (refs.map fun r => st.getD r []) hb hsp
      (by rw [List.length_range]; exact hlen) (by rw [List.length_range]; exact hn)
      (by intro r hr'; rw [List.length_map]; exact List.mem_range.1 hr')
      (by
        intro l hl
        obtain ⟨r, hr', rfl⟩ := List.mem_map.1 hl
        have := hr r hr'
        rw [List.getD_eq_getElem?_getD, List.getElem?_eq_getElem this]
        exact hst _ (List.getElem_mem this))
  have hbase := mode_unique h2 g2
  subst hbase
  have h5 := h5 hnd
  have g5 := g5 List.nodup_range
  have box : ∀ (k r : Nat), refs[k]? = some r → ∃ c, (b :: bs)[k]? = some c := by
    intro k r hk
    have hlt := (List.getElem?_eq_some_iff.1 hk).1
    rw [← hlen] at hlt
    exact ⟨_, List.getElem?_eq_getElem hlt⟩
  have rng : ∀ (k r : Nat), refs[k]? = some r → (List.range refs.length)[k]? = some k ∧
      (refs.map fun r => st.getD r [])[k]? = st[r]? := by
    intro k r hk
    have hlt := (List.getElem?_eq_some_iff.1 hk).1
    have hlr := hr r (List.mem_of_getElem? hk)
    refine ⟨List.getElem?_range hlt, ?_⟩
    rw [List.getElem?_map, hk, Option.map_some, List.getD_eq_getElem?_getD, List.getElem?_eq_getElem hlr]
    rfl
  have hmids : mids = mids2 := by
    apply List.ext_getElem?
    intro k
    by_cases hk : k < refs.length
    · have hk' := List.getElem?_eq_getElem hk
      obtain ⟨c, hc⟩ := box k _ hk'
      obtain ⟨v, mid, n, i1, i2, i3, _⟩ := h5 k _ c hk' hc
      obtain ⟨v', mid', n', j1, j2, j3, _⟩ := g5 k k c (rng k _ hk').1 hc
      rw [(rng k _ hk').2, i1] at j1
      cases j1
      rw [i3] at j3
      cases j3
      rw [i2, j2]
    · rw [List.getElem?_eq_none (by omega), List.getElem?_eq_none (by rw [g2', List.length_range]; omega)]
  subst hmids
  refine ⟨st', st2, h1, g1, ?_⟩
  intro k r hk
  obtain ⟨c, hc⟩ := box k r hk
  obtain ⟨v, mid, n, i1, i2, i3, _, i4, i5⟩ := h5 k r c hk hc
  obtain ⟨v', mid', n', j1, j2, j3, _, j4, j5⟩ := g5 k k c (rng k _ hk).1 hc
  rw [i2] at j2
  cases j2
  by_cases ht : meanTops infos (b :: bs) mids = []
  · rw [i4 ht, j4 ht]
  · obtain ⟨l, m, a1, a2, _⟩ := i5 ht
    obtain ⟨l', m', b1, b2, _⟩ := j5 ht
    have := mode_unique (h3 ht) (g3 ht)
    subst this
    rw [a2] at b2
    cases b2
    rw [a1, b1]

/-- The line of `C38_shared_list` satisfies the hypotheses but for the repeated pictures. -/
example : (∀ c ∈ quoteBoxes, BoxOk c) ∧ Spread ⟨0, 10, 5, 11⟩ quoteBoxes.tail ∧ InfosSorted quoteInfos := by
  unfold BoxOk Spread InfosSorted
  decide

/-- A line whose meanline removes a candidate: three x and a digit at the height of a capital. -/
example : filterByLines [⟨3, ⟨0, 0, 2, 2⟩⟩, ⟨4, ⟨0, 2, 1, 2⟩⟩, ⟨5, ⟨0, 0, 0, 1⟩⟩]
    [⟨0, 10, 5, 11⟩, ⟨10, 10, 5, 11⟩, ⟨20, 4, 5, 17⟩] [0, 1, 2]
    [[⟨5, 0⟩, ⟨3, 0⟩], [⟨5, 0⟩, ⟨3, 1⟩], [⟨3, 0⟩, ⟨4, 0⟩]] =
    .ok [[⟨3, 0⟩], [⟨3, 1⟩], [⟨4, 0⟩]] := by decide

end Ppocr.Props

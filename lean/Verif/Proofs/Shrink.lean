import Verif.Proofs.FilterLines

/-! # Helper lemmas: the filters only remove candidates -/

namespace Ppocr
open Spec

/-- The candidate lists of a line before and after a filter: nothing is added or moved, a list of one word stays. -/
def Shrunk (st st' : List (List View)) : Prop :=
  st'.length = st.length ∧ ∀ (r : Nat) (l : List View), st[r]? = some l →
    ∃ l', st'[r]? = some l' ∧ l'.Sublist l ∧ (OneWord l → l' = l)

theorem shrunk_refl (st : List (List View)) : Shrunk st st :=
  ⟨rfl, fun _ l h => ⟨l, h, List.Sublist.refl _, fun _ => rfl⟩⟩

theorem Shrunk.trans {a b c : List (List View)} (h : Shrunk a b) (h' : Shrunk b c) : Shrunk a c := by
  refine ⟨h'.1.trans h.1, fun r l hl => ?_⟩
  obtain ⟨l1, e1, s1, o1⟩ := h.2 r l hl
  obtain ⟨l2, e2, s2, o2⟩ := h'.2 r l1 e1
  refine ⟨l2, e2, s2.trans s1, fun ho => ?_⟩
  have := o1 ho
  subst this
  exact o2 ho

theorem shrunk_set {st : List (List View)} {r : Nat} {l l' : List View} (hl : rd st r = .ok l) (hs : l'.Sublist l)
    (ho : OneWord l → l' = l) : Shrunk st (st.set r l') := by
  refine ⟨List.length_set .., fun q m hm => ?_⟩
  by_cases hq : r = q
  · subst hq
    have hlt := (List.getElem?_eq_some_iff.1 hm).1
    rw [rd_of_lt hlt] at hl
    rw [List.getElem?_eq_getElem hlt] at hm
    cases hm
    cases hl
    exact ⟨l', List.getElem?_set_self hlt, hs, ho⟩
  · exact ⟨m, by rw [List.getElem?_set_ne hq]; exact hm, List.Sublist.refl _, fun _ => rfl⟩

theorem wordRuns_one {l : List View} (h : OneWord l) : (wordRuns l).length ≤ 1 := by
  induction l with
  | nil => exact Nat.zero_le _
  | cons v l ih =>
    have := ih fun a ha b hb => h a (List.mem_cons_of_mem _ ha) b (List.mem_cons_of_mem _ hb)
    unfold wordRuns
    split
    · rename_i u g gs hw
      rw [hw] at this
      have hu : u ∈ l := by
        have := wordRuns_flatten l
        rw [hw] at this
        rw [← this]
        simp
      rw [if_pos (h u (List.mem_cons_of_mem _ hu) v List.mem_cons_self)]
      simpa using this
    · rename_i gs hw
      cases hg : wordRuns l with
      | nil => simp
      | cons g gs =>
        cases g with
        | nil => exact absurd rfl (wordRuns_run l [] (by rw [hg]; simp)).ne
        | cons u g => exact absurd hg (by apply hw)

theorem keepRuns_split {pred : View → Res Bool} : ∀ {gs : List (List View)} {n m : Nat} {k : List View}
    {rest : List (List View)}, keepRuns pred gs n = .ok (k, rest, m) → k ++ rest.flatten = gs.flatten
  | [], _, _, _, _, h => by
    unfold keepRuns at h
    cases h
    rfl
  | [g], _, _, _, _, h => by
    unfold keepRuns at h
    cases h
    simp
  | g :: h :: gs, n, m, k, rest, e => by
    unfold keepRuns at e
    obtain ⟨r, _, e⟩ := Res.bind_eq_ok.1 e
    split at e
    · cases e
      simp
    · obtain ⟨⟨k', rest', m'⟩, e1, e⟩ := Res.bind_eq_ok.1 e
      have := keepRuns_split e1
      cases e
      rw [List.flatten_cons, List.append_assoc, this]

theorem filterRuns_sub {pred : View → Res Bool} : ∀ {gs : List (List View)} {n m : Nat} {k : List View},
    filterRuns pred gs n = .ok (k, m) → k.Sublist gs.flatten
  | [], _, _, _, h => by
    unfold filterRuns at h
    cases h
    exact List.Sublist.refl _
  | g :: gs, n, m, k, h => by
    unfold filterRuns at h
    obtain ⟨r, _, h⟩ := Res.bind_eq_ok.1 h
    obtain ⟨⟨k', m'⟩, e1, h⟩ := Res.bind_eq_ok.1 h
    have := filterRuns_sub e1
    cases h
    rw [List.flatten_cons]
    cases r
    · exact List.Sublist.append (List.Sublist.refl _) this
    · exact this.trans (List.sublist_append_right _ _)

theorem filterLine_sub {pred : View → Res Bool} {l l' : List View} {n : Nat} (h : filterLine pred l = .ok (l', n)) :
    l'.Sublist l ∧ (OneWord l → l' = l) := by
  have hf := wordRuns_flatten l
  unfold filterLine at h
  split at h
  · cases h
    exact ⟨List.Sublist.refl _, fun _ => rfl⟩
  · cases h
    exact ⟨List.Sublist.refl _, fun _ => rfl⟩
  · rename_i g gs h1 hw
    constructor
    · obtain ⟨r, _, h⟩ := Res.bind_eq_ok.1 h
      obtain ⟨⟨kept, rest, m⟩, e1, h⟩ := Res.bind_eq_ok.1 h
      obtain ⟨⟨tail, m'⟩, e2, h⟩ := Res.bind_eq_ok.1 h
      have h2 := filterRuns_sub e2
      cases h
      have h3 : (kept ++ rest.flatten).Sublist l := by
        unfold keepFirstRuns at e1
        split at e1
        · cases e1
          rw [← hf, hw, List.flatten_cons]
          exact List.sublist_append_right _ _
        · obtain ⟨⟨k, rest', m''⟩, e3, e1⟩ := Res.bind_eq_ok.1 e1
          have := keepRuns_split e3
          cases e1
          rw [← hf, hw, List.flatten_cons, List.append_assoc, this]
          exact List.Sublist.refl _
      exact (List.Sublist.append (List.Sublist.refl _) h2).trans h3
    · intro ho
      have := wordRuns_one ho
      rw [hw] at this
      cases gs with
      | nil => exact absurd rfl h1
      | cons => simp at this

theorem basePass_shrunk {infos : List WordInfo} {bl mt : Nat} : ∀ {l : List (Nat × Box)} {st st' : List (List View)}
    {map map' : List Nat} {has has' : Bool}, basePass infos bl mt l st map has = .ok (st', map', has') → Shrunk st st'
  | [], st, _, _, _, _, _, h => by
    unfold basePass at h
    cases h
    exact shrunk_refl _
  | (r, b) :: l, st, st', _, _, _, _, h => by
    unfold basePass at h
    obtain ⟨vec, e1, h⟩ := Res.bind_eq_ok.1 h
    obtain ⟨⟨vec', n⟩, e2, h⟩ := Res.bind_eq_ok.1 h
    obtain ⟨⟨m', h'⟩, _, h⟩ := Res.bind_eq_ok.1 h
    have := filterLine_sub e2
    exact (shrunk_set e1 this.1 this.2).trans (basePass_shrunk h)

theorem meanPass_shrunk {infos : List WordInfo} {ml : Nat} : ∀ {l : List (Nat × Box)} {st st' : List (List View)},
    meanPass infos ml l st = .ok st' → Shrunk st st'
  | [], st, _, h => by
    unfold meanPass at h
    cases h
    exact shrunk_refl _
  | (r, b) :: l, st, st', h => by
    unfold meanPass at h
    obtain ⟨vec, e1, h⟩ := Res.bind_eq_ok.1 h
    obtain ⟨⟨vec', n⟩, e2, h⟩ := Res.bind_eq_ok.1 h
    have := filterLine_sub e2
    exact (shrunk_set e1 this.1 this.2).trans (meanPass_shrunk h)

theorem filterByLines_shrunk {infos : List WordInfo} {boxes : List Box} {refs : List Nat} {st st' : List (List View)}
    (h : filterByLines infos boxes refs st = .ok st') : Shrunk st st' := by
  unfold filterByLines at h
  obtain ⟨_, _, h⟩ := Res.bind_eq_ok.1 h
  split at h
  · cases h
    exact shrunk_refl _
  · rename_i b bs _ _
    obtain ⟨ys, _, h⟩ := Res.bind_eq_ok.1 h
    obtain ⟨⟨st1, map, has⟩, e1, h⟩ := Res.bind_eq_ok.1 h
    have h1 := basePass_shrunk e1
    have h : meanIf infos (minMaxBox b bs) (refs.zip (b :: bs)) st1 map has = .ok st' := h
    unfold meanIf at h
    cases has
    · cases h
      exact h1
    · exact h1.trans (meanPass_shrunk h)

end Ppocr

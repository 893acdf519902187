import Verif.Model.Reindex

/-! # C54: reindexing -/

namespace Ppocr.Props
open Ppocr

variable {α : Type}

theorem moveLoop_ok : ∀ (is : List Nat) (k : Nat) (cont new : List (Option α)), k + is.length ≤ new.length →
    (∀ i ∈ is, i < cont.length) → is.Nodup →
    moveLoop is k cont new = .ok (new.take k ++ is.map (fun i => cont.getD i none) ++ new.drop (k + is.length)) := by
  intro is
  induction is with
  | nil => intro k cont new h _ _; simp [moveLoop]
  | cons i is ih =>
    intro k cont new h hi hn
    rw [List.nodup_cons] at hn
    have h0 := hi i (by simp)
    simp only [List.length_cons] at h
    rw [moveLoop, rd_of_lt h0, Res.ok_bind, wrAt, if_pos (by omega), Res.ok_bind, wrAt, if_pos h0, Res.ok_bind,
      ih (k + 1) _ _ (by simp; omega) (by intro j hj; rw [List.length_set]; exact hi j (by simp [hj])) hn.2]
    have e1 : (new.set k cont[i]).take (k + 1) = new.take k ++ [cont[i]] := by
      rw [List.take_set, List.take_add_one, List.getElem?_eq_getElem (by omega)]
      simp only [Option.toList_some]
      rw [List.set_append_right _ _ (by simp; omega), List.length_take, Nat.min_eq_left (by omega), Nat.sub_self]
      rfl
    have e2 : (new.set k cont[i]).drop (k + 1 + is.length) = new.drop (k + (is.length + 1)) := by
      rw [List.drop_set_of_lt (by omega)]
      congr 1; omega
    have e3 : is.map (fun j => (cont.set i none).getD j none) = is.map (fun j => cont.getD j none) := by
      apply List.map_congr_left
      intro j hj
      have : i ≠ j := fun e => hn.1 (e ▸ hj)
      rw [List.getD_eq_getElem?_getD, List.getD_eq_getElem?_getD, List.getElem?_set_ne this]
    rw [e1, e2, e3, List.map_cons, List.getD_eq_getElem?_getD, List.getElem?_eq_getElem h0]
    simp

/-- **C54**: `reindex` by a permutation puts at place `k` the element of place `indexes[k]`, and keeps all elements. -/
theorem C54_reindex (dflt : α) (indexes : List Nat) (cont : List α) (hp : indexes.Perm (List.range cont.length)) :
    ∃ r : List α, reindex dflt indexes cont = .ok (r.map some) ∧ r.length = cont.length ∧
      (∀ k i : Nat, indexes[k]? = some i → r[k]? = cont[i]?) ∧ r.Perm cont := by
  have hlt : ∀ i ∈ indexes, i < cont.length := fun i hi => by simpa using hp.mem_iff.1 hi
  have hlen : indexes.length = cont.length := by rw [hp.length_eq, List.length_range]
  have key : ∀ i ∈ indexes, (cont.map some).getD i none = some (cont.getD i dflt) := by
    intro i hi
    have := hlt i hi
    rw [List.getD_eq_getElem?_getD, List.getD_eq_getElem?_getD, List.getElem?_map, List.getElem?_eq_getElem this]
    rfl
  refine ⟨indexes.map (fun i => cont.getD i dflt), ?_, by simp [hlen], ?_, ?_⟩
  · rw [reindex, moveLoop_ok _ _ _ _ (by simp [hlen]) (by simpa using hlt) (hp.nodup_iff.2 List.nodup_range)]
    simp only [List.take_zero, List.nil_append, Nat.zero_add, Res.ok.injEq]
    rw [List.drop_eq_nil_of_le (by simp [hlen]), List.append_nil, List.map_map]
    exact List.map_congr_left key
  · intro k i hk
    have hi := hlt i (List.mem_of_getElem? hk)
    rw [List.getElem?_map, hk, List.getElem?_eq_getElem hi, Option.map_some, List.getD_eq_getElem?_getD,
      List.getElem?_eq_getElem hi]
    rfl
  · have h1 := hp.map (fun i => cont.getD i dflt)
    have h2 : (List.range cont.length).map (fun i => cont.getD i dflt) = cont := by
      apply List.ext_getElem (by simp)
      intro k h1 h2
      simp [List.getD_eq_getElem?_getD, List.getElem?_eq_getElem h2]
    rwa [h2] at h1

/-- The glyphs and all columns keep their rows together. -/
theorem C54_columns (indexes : List Nat) (n : Nat) (hp : indexes.Perm (List.range n)) : ∀ (cols : List (α × List α)),
    (∀ c ∈ cols, c.2.length = n) → ∃ rs : List (List α), reindexColumns indexes cols = .ok (rs.map (List.map some)) ∧
      rs.length = cols.length ∧
      ∀ k i : Nat, indexes[k]? = some i → rs.map (fun r => r[k]?) = cols.map (fun c => c.2[i]?) := by
  intro cols
  induction cols with
  | nil => intro _; exact ⟨[], rfl, rfl, by simp⟩
  | cons c cols ih =>
    intro h
    obtain ⟨d, c⟩ := c
    obtain ⟨r, hr, _, hk, _⟩ := C54_reindex d indexes c (by rw [h (d, c) (by simp)]; exact hp)
    obtain ⟨rs, hrs, hl, hks⟩ := ih fun c hc => h c (by simp [hc])
    refine ⟨r :: rs, ?_, by simp [hl], ?_⟩
    · rw [reindexColumns, hr, Res.ok_bind, hrs, Res.ok_bind]; rfl
    · intro k i e
      rw [List.map_cons, List.map_cons, hks k i e, hk k i e]

/-- What is not a permutation: too many or too large indexes are undefined, with too few the rest is lost, and the second
of two equal indexes takes what was moved away. -/
theorem C54_not_permutation : reindex 0 [0, 1, 0] [7, 8] = .ub ∧ reindex 0 [2] [7, 8] = .ub ∧
    reindex 0 [1] [7, 8] = .ok [some 8, some 0] ∧ reindex 0 [1, 1] [7, 8] = .ok [some 8, none] := by decide

example : reindex 0 [3, 0, 2, 4, 1] [10, 11, 12, 13, 14] = .ok ([13, 10, 12, 14, 11].map some) := by decide

example : reindexColumns [2, 0, 1] [(0, [7, 8, 9]), (5, [1, 2, 3])] = .ok [[9, 7, 8].map some, [3, 1, 2].map some] := by
  decide

end Ppocr.Props

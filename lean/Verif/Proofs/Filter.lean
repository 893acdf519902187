import Verif.Spec.Filter
import Verif.Proofs.Ocr2

/-! # Helper lemmas: filters of a line -/

namespace Ppocr
open Spec

/-! ### Fonts -/

/-- The count of a key. -/
def mget (f : Nat) : List (Nat × Nat) → Nat
  | [] => 0
  | (g, n) :: m => (if g = f then n else 0) + mget f m

/-- Sorted by key, counts positive. -/
structure FontMap (m : List (Nat × Nat)) : Prop where
  sorted : m.Pairwise fun a b => a.1 < b.1
  pos : ∀ e ∈ m, 0 < e.2

theorem mget_pos {f : Nat} {m : List (Nat × Nat)} (h : 0 < mget f m) : ∃ n, (f, n) ∈ m := by
  induction m with
  | nil => exact absurd h (by simp [mget])
  | cons e m ih =>
    obtain ⟨g, n⟩ := e
    by_cases hg : g = f
    · exact ⟨n, by rw [hg]; exact List.mem_cons_self⟩
    · unfold mget at h
      rw [if_neg hg, Nat.zero_add] at h
      obtain ⟨n', hn⟩ := ih h
      exact ⟨n', List.mem_cons_of_mem _ hn⟩

theorem mget_absent {f : Nat} {m : List (Nat × Nat)} (h : ∀ e ∈ m, e.1 ≠ f) : mget f m = 0 := by
  apply Nat.eq_zero_of_not_pos
  intro hp
  obtain ⟨n, hn⟩ := mget_pos hp
  exact h _ hn rfl

theorem mget_of_mem {f n : Nat} {m : List (Nat × Nat)} (hs : m.Pairwise fun a b => a.1 < b.1)
    (h : (f, n) ∈ m) : mget f m = n := by
  induction m with
  | nil => exact absurd h (by simp)
  | cons e m ih =>
    obtain ⟨g, k⟩ := e
    rw [List.pairwise_cons] at hs
    rcases List.mem_cons.1 h with h | h
    · cases h
      unfold mget
      rw [if_pos rfl, mget_absent, Nat.add_zero]
      intro e he
      have := hs.1 e he
      simp only at this
      omega
    · unfold mget
      have := hs.1 _ h
      simp only at this
      rw [if_neg (by omega), Nat.zero_add]
      exact ih hs.2 h

theorem fontIncr_key {k : Nat} {m : List (Nat × Nat)} {e : Nat × Nat} (h : e ∈ fontIncr k m) :
    e.1 = k ∨ e ∈ m := by
  induction m with
  | nil =>
    unfold fontIncr at h
    rw [List.mem_singleton] at h
    exact Or.inl (by rw [h])
  | cons g m ih =>
    obtain ⟨f, n⟩ := g
    unfold fontIncr at h
    split at h
    · rcases List.mem_cons.1 h with h | h
      · exact Or.inl (by rw [h])
      · exact Or.inr h
    · split at h
      · rename_i hk
        rcases List.mem_cons.1 h with h | h
        · exact Or.inl (by rw [h, hk])
        · exact Or.inr (List.mem_cons_of_mem _ h)
      · rcases List.mem_cons.1 h with h | h
        · exact Or.inr (by rw [h]; exact List.mem_cons_self)
        · rcases ih h with h | h
          · exact Or.inl h
          · exact Or.inr (List.mem_cons_of_mem _ h)

theorem fontIncr_ok (k : Nat) (m : List (Nat × Nat)) (hm : FontMap m) (hb : ∀ f, mget f m + 1 < W32) :
    FontMap (fontIncr k m) ∧ ∀ f, mget f (fontIncr k m) = mget f m + if f = k then 1 else 0 := by
  induction m with
  | nil =>
    refine ⟨⟨by simp [fontIncr], by simp [fontIncr]⟩, ?_⟩
    intro f
    simp only [fontIncr, mget]
    split <;> split <;> omega
  | cons e m ih =>
    obtain ⟨g, n⟩ := e
    have hs := hm.sorted
    rw [List.pairwise_cons] at hs
    have hn := hm.pos (g, n) List.mem_cons_self
    unfold fontIncr
    split
    · rename_i hk
      refine ⟨⟨?_, ?_⟩, ?_⟩
      · rw [List.pairwise_cons]
        refine ⟨?_, hm.sorted⟩
        intro e he
        rcases List.mem_cons.1 he with rfl | he
        · exact hk
        · have := hs.1 e he
          simp only at *
          omega
      · intro e he
        rcases List.mem_cons.1 he with rfl | he
        · exact Nat.zero_lt_one
        · exact hm.pos e he
      · intro f
        rw [mget]
        split <;> split <;> omega
    · split
      · rename_i hk
        subst hk
        have hbk := hb k
        unfold mget at hbk
        rw [if_pos rfl] at hbk
        have e1 : uadd n 1 = n + 1 := uadd_eq (by omega)
        refine ⟨⟨?_, ?_⟩, ?_⟩
        · rw [List.pairwise_cons]
          exact ⟨fun e he => hs.1 e he, hs.2⟩
        · intro e he
          rcases List.mem_cons.1 he with rfl | he
          · simp only [e1]; omega
          · exact hm.pos e (List.mem_cons_of_mem _ he)
        · intro f
          simp only [mget, e1]
          split <;> split <;> omega
      · rename_i h1 h2
        obtain ⟨⟨a, b⟩, c⟩ := ih ⟨hs.2, fun e he => hm.pos e (List.mem_cons_of_mem _ he)⟩ (fun f => by
          have := hb f
          unfold mget at this
          omega)
        refine ⟨⟨?_, ?_⟩, ?_⟩
        · rw [List.pairwise_cons]
          refine ⟨?_, a⟩
          intro e he
          rcases fontIncr_key he with h | h
          · simp only [h]; omega
          · exact hs.1 e h
        · intro e he
          rcases List.mem_cons.1 he with rfl | he
          · exact hn
          · exact b e he
        · intro f
          unfold mget
          rw [c f]
          omega

theorem countFonts_ok (st : List (List View)) (refs : List Nat) (m : List (Nat × Nat)) (hr : RefsOk refs st)
    (hm : FontMap m) (hb : ∀ f, mget f m + refs.length < W32) :
    ∃ m', countFonts st refs m = .ok m' ∧ FontMap m' ∧ ∀ f, mget f m' = mget f m + fontCount refs st f := by
  induction refs generalizing m with
  | nil => exact ⟨m, rfl, hm, fun f => rfl⟩
  | cons r rs ih =>
    have hlt := hr r List.mem_cons_self
    have hrs : RefsOk rs st := fun x hx => hr x (List.mem_cons_of_mem _ hx)
    have hb' : ∀ f, mget f m + rs.length + 1 < W32 := fun f => by
      have := hb f
      rw [List.length_cons] at this
      omega
    unfold countFonts
    rw [rd_of_lt hlt, Res.ok_bind]
    by_cases h1 : ∃ v, st[r] = [v]
    · obtain ⟨v, hv⟩ := h1
      simp only [hv]
      obtain ⟨a, b⟩ := fontIncr_ok v.font m hm (fun f => by have := hb' f; omega)
      obtain ⟨m', e1, e2, e3⟩ := ih (fontIncr v.font m) hrs a (fun f => by
        rw [b f]
        have := hb' f
        split <;> omega)
      refine ⟨m', e1, e2, ?_⟩
      intro f
      rw [e3 f, b f]
      unfold fontCount
      rw [List.countP_cons, List.getElem?_eq_getElem hlt, hv]
      simp only [decide_eq_true_eq]
      by_cases hf : v.font = f
      · rw [if_pos hf, if_pos hf.symm]; omega
      · rw [if_neg hf, if_neg (fun h => hf h.symm)]; omega
    · obtain ⟨m', e1, e2, e3⟩ := ih m hrs hm (fun f => by have := hb' f; omega)
      refine ⟨m', ?_, e2, ?_⟩
      · split
        · rename_i v hv
          exact absurd ⟨v, hv⟩ h1
        · exact e1
      · intro f
        rw [e3 f]
        unfold fontCount
        rw [List.countP_cons, List.getElem?_eq_getElem hlt]
        split
        · rename_i hc
          exact absurd ⟨_, Option.some.inj hc⟩ h1
        · simp

theorem maxFont_ok (b : Nat × Nat) (m : List (Nat × Nat)) (hs : (b :: m).Pairwise fun a b => a.1 < b.1) :
    maxFont b m ∈ b :: m ∧
      ∀ e ∈ b :: m, e.2 ≤ (maxFont b m).2 ∧ (e.2 = (maxFont b m).2 → (maxFont b m).1 ≤ e.1) := by
  induction m generalizing b with
  | nil =>
    refine ⟨List.mem_cons_self, ?_⟩
    intro e he
    rw [List.mem_singleton] at he
    subst he
    exact ⟨Nat.le_refl _, fun _ => Nat.le_refl _⟩
  | cons x m ih =>
    rw [List.pairwise_cons, List.pairwise_cons] at hs
    unfold maxFont
    split
    · rename_i hlt
      obtain ⟨h1, h2⟩ := ih x (List.pairwise_cons.2 hs.2)
      refine ⟨List.mem_cons_of_mem _ h1, ?_⟩
      intro e he
      rcases List.mem_cons.1 he with rfl | he
      · have := (h2 x List.mem_cons_self).1
        exact ⟨by omega, fun h => by omega⟩
      · exact h2 e he
    · rename_i hlt
      obtain ⟨h1, h2⟩ := ih b (List.pairwise_cons.2
        ⟨fun e he => hs.1 e (List.mem_cons_of_mem _ he), hs.2.2⟩)
      refine ⟨?_, ?_⟩
      · rcases List.mem_cons.1 h1 with h | h
        · rw [h]; exact List.mem_cons_self
        · exact List.mem_cons_of_mem _ (List.mem_cons_of_mem _ h)
      · intro e he
        rcases List.mem_cons.1 he with rfl | he
        · exact h2 e List.mem_cons_self
        · rcases List.mem_cons.1 he with rfl | he
          · have hb := h2 b List.mem_cons_self
            have := hs.1 e List.mem_cons_self
            refine ⟨by omega, fun h => ?_⟩
            have := hb.2 (by omega)
            omega
          · exact h2 e (List.mem_cons_of_mem _ he)

theorem keepFont_reduced (f : Nat) (l : List View) : Reduced f l (keepFont f l) := by
  unfold Reduced keepFont
  match l with
  | [] => exact ⟨fun _ => rfl, fun h => absurd h (by simp)⟩
  | [v] => exact ⟨fun _ => rfl, fun h => absurd h (by simp)⟩
  | v :: u :: l =>
    refine ⟨fun h => absurd h (by simp), fun _ => ?_⟩
    simp only []
    cases h : (v :: u :: l).find? fun u => decide (u.font = f) with
    | none =>
      right
      rw [List.find?_eq_none] at h
      exact ⟨fun w hw => by simpa using h w hw, v, rfl, rfl⟩
    | some w =>
      left
      obtain ⟨h1, as, bs, h2, h3⟩ := List.find?_eq_some_iff_append.1 h
      refine ⟨as.length, w, ?_, by simpa using h1, rfl, ?_⟩
      · rw [h2, List.getElem?_append_right (Nat.le_refl _), Nat.sub_self]
        rfl
      · intro j u' hj hu
        rw [h2, List.getElem?_append_left hj] at hu
        have := h3 u' (List.mem_of_getElem? hu)
        simpa using this

theorem keepFont_idem (f : Nat) (l : List View) : keepFont f (keepFont f l) = keepFont f l := by
  match l with
  | [] => rfl
  | [v] => rfl
  | v :: u :: l =>
    have : ∃ w, keepFont f (v :: u :: l) = [w] := by
      unfold keepFont
      simp only []
      split
      · exact ⟨_, rfl⟩
      · exact ⟨_, rfl⟩
    obtain ⟨w, hw⟩ := this
    rw [hw]
    rfl

theorem keepFonts_ok (f : Nat) (refs : List Nat) (st : List (List View)) (hr : RefsOk refs st) :
    ∃ st', keepFonts f refs st = .ok st' ∧ st'.length = st.length ∧
      (∀ r ∈ refs, st'[r]? = st[r]?.map (keepFont f)) ∧ (∀ r, r ∉ refs → st'[r]? = st[r]?) := by
  induction refs generalizing st with
  | nil => exact ⟨st, rfl, rfl, fun r h => absurd h (by simp), fun _ _ => rfl⟩
  | cons r rs ih =>
    have hlt := hr r List.mem_cons_self
    unfold keepFonts
    rw [rd_of_lt hlt, Res.ok_bind]
    obtain ⟨st', e1, e2, e3, e4⟩ := ih (st.set r (keepFont f st[r])) (by
      intro x hx
      rw [List.length_set]
      exact hr x (List.mem_cons_of_mem _ hx))
    have hset : (st.set r (keepFont f st[r]))[r]? = some (keepFont f st[r]) := by
      rw [List.getElem?_set_self hlt]
    have hself : st'[r]? = some (keepFont f st[r]) := by
      by_cases hm : r ∈ rs
      · rw [e3 r hm, hset, Option.map_some, keepFont_idem]
      · rw [e4 r hm, hset]
    refine ⟨st', e1, by rw [e2, List.length_set], ?_, ?_⟩
    · intro x hx
      by_cases hxr : x = r
      · subst hxr
        rw [hself, List.getElem?_eq_getElem hlt, Option.map_some]
      · rcases List.mem_cons.1 hx with h | h
        · exact absurd h hxr
        · rw [e3 x h, List.getElem?_set_ne (fun h => hxr h.symm)]
    · intro x hx
      rw [List.mem_cons, not_or] at hx
      rw [e4 x hx.2, List.getElem?_set_ne (fun h => hx.1 h.symm)]

end Ppocr

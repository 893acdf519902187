import Verif.Proofs.Datas

/-! # Helper lemmas: comparison of the rows of a table of features -/

namespace Ppocr
open Spec

section
variable {α : Type} (lt : α → α → Bool) (irr : ∀ a, lt a a = false)
  (tr : ∀ a b c, lt a b = true → lt b c = true → lt a c = true)
  (tri : ∀ a b, lt a b = false → lt b a = false → a = b)
include irr

theorem lexLt_irrefl (l : List α) : lexLt lt l l = false := by
  induction l with
  | nil => rfl
  | cons a l ih =>
    unfold lexLt
    rw [if_neg (by simp [irr]), if_neg (by simp [irr]), ih]

include tr tri

omit irr in
theorem lexLt_trans (a b c : List α) (h1 : lexLt lt a b = true) (h2 : lexLt lt b c = true) :
    lexLt lt a c = true := by
  induction a generalizing b c with
  | nil =>
    cases b with
    | nil => exact absurd h1 (by simp [lexLt])
    | cons y b =>
      cases c with
      | nil => exact absurd h2 (by simp [lexLt])
      | cons z c => rfl
  | cons x a ih =>
    cases b with
    | nil => exact absurd h1 (by simp [lexLt])
    | cons y b =>
      cases c with
      | nil => exact absurd h2 (by simp [lexLt])
      | cons z c =>
        unfold lexLt at h1 h2 ⊢
        by_cases hxy : lt x y = true
        · by_cases hyz : lt y z = true
          · rw [if_pos (tr _ _ _ hxy hyz)]
          · rw [if_neg hyz] at h2
            by_cases hzy : lt z y = true
            · rw [if_pos hzy] at h2
              exact absurd h2 (by simp)
            · have := tri y z (by simpa using hyz) (by simpa using hzy)
              subst this
              rw [if_pos hxy]
        · rw [if_neg hxy] at h1
          by_cases hyx : lt y x = true
          · rw [if_pos hyx] at h1
            exact absurd h1 (by simp)
          · have := tri x y (by simpa using hxy) (by simpa using hyx)
            subst this
            rw [if_neg hyx] at h1
            by_cases hyz : lt x z = true
            · rw [if_pos hyz]
            · rw [if_neg hyz] at h2 ⊢
              by_cases hzy : lt z x = true
              · rw [if_pos hzy] at h2
                exact absurd h2 (by simp)
              · rw [if_neg hzy] at h2 ⊢
                exact ih b c h1 h2

end

theorem altLt_laws : (∀ a, altLt a a = false) ∧
    (∀ a b c, altLt a b = true → altLt b c = true → altLt a c = true) ∧
    (∀ a b, altLt a b = false → altLt b a = false → a = b) := by
  refine ⟨?_, ?_, ?_⟩
  · rintro ⟨x, n⟩
    cases x <;> simp [altLt]
  · rintro ⟨x, n⟩ ⟨y, m⟩ ⟨z, k⟩
    cases x <;> cases y <;> cases z <;> simp [altLt] <;> omega
  · rintro ⟨x, n⟩ ⟨y, m⟩
    cases x <;> cases y <;> simp [altLt] <;> omega

theorem Value.lt_irrefl (a : Value) : a.lt a = false := by
  cases a with
  | num n => simp [Value.lt]
  | arr l => exact lexLt_irrefl _ (by simp) l
  | alt l => exact lexLt_irrefl _ altLt_laws.1 l

theorem Value.lt_trans (a b c : Value) (h1 : a.lt b = true) (h2 : b.lt c = true) : a.lt c = true := by
  cases a <;> cases b <;> simp only [Value.lt, Bool.false_eq_true] at h1 <;> cases c <;>
    simp only [Value.lt, Bool.false_eq_true] at h2 ⊢
  · simp only [decide_eq_true_eq] at *
    omega
  · exact lexLt_trans _ (by simp only [decide_eq_true_eq]; omega)
      (by simp only [decide_eq_false_iff_not]; omega) _ _ _ h1 h2
  · exact lexLt_trans _ altLt_laws.2.1 altLt_laws.2.2 _ _ _ h1 h2

theorem cmp_eq (ts : List Table) (i j : Nat) (hr : HasRows ts i j) (h0 : ts ≠ []) :
    cmpDatas (fun a b => decide (a = b)) (fun _ _ => false) i j ts =
      .ok (decide (∀ t ∈ ts, cell t i = cell t j)) := by
  induction ts with
  | nil => exact absurd rfl h0
  | cons t ts ih =>
    have ht := hr t List.mem_cons_self
    have e1 : t.vals[i] = cell t i := by simp [cell, List.getD_eq_getElem?_getD, ht.1]
    have e2 : t.vals[j] = cell t j := by simp [cell, List.getD_eq_getElem?_getD, ht.2]
    cases ts with
    | nil =>
      unfold cmpDatas
      rw [rd_of_lt ht.1, Res.ok_bind, rd_of_lt ht.2, Res.ok_bind, e1, e2]
      simp
    | cons u us =>
      unfold cmpDatas
      rw [rd_of_lt ht.1, Res.ok_bind, rd_of_lt ht.2, Res.ok_bind, e1, e2]
      have := ih (fun v hv => hr v (List.mem_cons_of_mem _ hv)) (by simp)
      by_cases he : cell t i = cell t j
      · rw [if_pos (by simp [he]), this]
        congr 1
        simp [he]
      · rw [if_neg (by simp [he])]
        simp [he]

/-- What `Datas::lt` computes: at most in every table but the last, smaller in the last. -/
def allLe (ts : List Table) (i j : Nat) : Prop :=
  (∀ t ∈ ts.dropLast, (cell t i).lt (cell t j) = true ∨ cell t i = cell t j) ∧
    ∀ t ∈ ts.getLast?, (cell t i).lt (cell t j) = true

theorem cmp_lt (ts : List Table) (i j : Nat) (hr : HasRows ts i j) (h0 : ts ≠ []) :
    ∃ b, cmpDatas Value.lt (fun a b => decide (a = b)) i j ts = .ok b ∧ (b = true ↔ allLe ts i j) := by
  induction ts with
  | nil => exact absurd rfl h0
  | cons t ts ih =>
    have ht := hr t List.mem_cons_self
    have e1 : t.vals[i] = cell t i := by simp [cell, List.getD_eq_getElem?_getD, ht.1]
    have e2 : t.vals[j] = cell t j := by simp [cell, List.getD_eq_getElem?_getD, ht.2]
    cases ts with
    | nil =>
      unfold cmpDatas
      rw [rd_of_lt ht.1, Res.ok_bind, rd_of_lt ht.2, Res.ok_bind, e1, e2]
      exact ⟨_, rfl, by simp [allLe]⟩
    | cons u us =>
      unfold cmpDatas
      rw [rd_of_lt ht.1, Res.ok_bind, rd_of_lt ht.2, Res.ok_bind, e1, e2]
      obtain ⟨b, h1, h2⟩ := ih (fun v hv => hr v (List.mem_cons_of_mem _ hv)) (by simp)
      have ha : allLe (t :: u :: us) i j ↔
          ((cell t i).lt (cell t j) = true ∨ cell t i = cell t j) ∧ allLe (u :: us) i j := by
        unfold allLe
        rw [List.dropLast_cons_cons, List.getLast?_cons_cons]
        simp [and_assoc]
      by_cases he : (cell t i).lt (cell t j) = true ∨ cell t i = cell t j
      · rw [if_pos (by simpa using he), h1]
        refine ⟨b, rfl, ?_⟩
        rw [ha, h2]
        simp [he]
      · rw [if_neg (by simpa using he)]
        refine ⟨false, rfl, ?_⟩
        rw [ha]
        simp [he]

theorem allLe_irrefl (ts : List Table) (h0 : ts ≠ []) (i : Nat) : ¬ allLe ts i i := by
  intro h
  have := h.2 (ts.getLast h0) (by rw [List.getLast?_eq_some_getLast h0]; rfl)
  rw [Value.lt_irrefl] at this
  exact absurd this (by simp)

theorem allLe_trans (ts : List Table) (i j k : Nat) (h1 : allLe ts i j) (h2 : allLe ts j k) :
    allLe ts i k := by
  constructor
  · intro t ht
    rcases h1.1 t ht with a | a <;> rcases h2.1 t ht with b | b
    · exact Or.inl (Value.lt_trans _ _ _ a b)
    · rw [b] at a; exact Or.inl a
    · rw [← a] at b; exact Or.inl b
    · exact Or.inr (a.trans b)
  · intro t ht
    exact Value.lt_trans _ _ _ (h1.2 t ht) (h2.2 t ht)

end Ppocr

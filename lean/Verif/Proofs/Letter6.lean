import Verif.Proofs.Text6

/-! # Helper lemmas: one letter in `extract_text6` -/

namespace Ppocr
open Spec Props

/-- What is known of the columns. -/
structure Cols6 (d : Datas) (n : Nat) : Prop where
  small : n + 63 < W32
  len : ∀ s ∈ simpleStrats, (d.col s).length = n
  lt : ∀ s ∈ simpleStrats, ∀ x ∈ d.col s, x < W32
  sorted : (d.col strategy1).Pairwise (· ≤ ·)

/-- The decile of row `j` is the one of the value. -/
abbrev same6 (d : Datas) (val : Feat × Policy → Nat) (j : Nat) (s : Feat × Policy) : Bool :=
  decide ((d.col s).getD j 0 / 10 = val s / 10)

/-- Row `j` is a candidate. -/
abbrev cand6 (d : Datas) (val : Feat × Policy → Nat) (j : Nat) : Bool :=
  near6 (val strategy1 / 10) ((d.col strategy1).getD j 0) && otherAlgos.all (same6 d val j)

theorem candidates6_ok {d : Datas} {ws : List Words} {t : Tab6} {n : Nat} (hb : Built d ws t) (hc : Cols6 d n) (hw : ws.length = n)
    {img img90 : Image} {val : Feat × Policy → Nat}
    (hv : ∀ s ∈ simpleStrats, toolLoad s img img90 = .ok (.num (val s)) ∧ val s ≤ s.1.k) :
    ∃ ps, candidates6 t img img90 = .ok ps ∧ (ps.map Prod.fst).Pairwise (· < ·) ∧
      (∀ j, j ∈ ps.map Prod.fst ↔ j < n ∧ cand6 d val j = true) ∧
      ∀ q ∈ ps, q.2.Crisp (simpleStrats.all (same6 d val q.1)) := by
  have h1 : strategy1 ∈ simpleStrats := by decide
  have hx1 := hv strategy1 h1
  have hv20 : val strategy1 / 10 ≤ 20 := by
    have : strategy1.1.k = 200 := rfl
    omega
  obtain ⟨xs, exs, lxs, hxs⟩ := eachRes_ok (f := fun s => do return (← toolLoad s img img90).toNum)
    (R := fun s x => x = val s) otherAlgos (by
    intro s hs
    exact ⟨val s, by simp only [(hv s (otherAlgos_simple s hs)).1, Res.ok_bind]; rfl, rfl⟩)
  obtain ⟨D, eD, lD, hD⟩ := hb.defs _ hv20
  -- the masks, one for each strategy
  have hzip : ∀ p ∈ D.zip xs, ∃ m, p.1[p.2 / 10]? = some m ∧ m.length = (nb6 d (val strategy1 / 10) + 63) / 64 := by
    intro p hp
    obtain ⟨k, hk⟩ := List.getElem?_of_mem hp
    rw [List.getElem?_zip_eq_some] at hk
    have hk' : k < otherAlgos.length := by
      have := (List.getElem?_eq_some_iff.1 hk.1).1
      omega
    obtain ⟨M, eM, hM⟩ := hD k _ (List.getElem?_eq_getElem hk')
    obtain ⟨x, ex, hx⟩ := hxs k _ (List.getElem?_eq_getElem hk')
    rw [hk.1, Option.some.injEq] at eM
    rw [hk.2, Option.some.injEq] at ex
    have hs := otherAlgos_simple _ (List.getElem_mem hk')
    have := (hv _ hs).2
    have hi := (interval6_simple _ hs).1
    obtain ⟨m, em, lm, _⟩ := hM (p.2 / 10) (by rw [ex, hx, hi]; omega)
    rw [eM]
    exact ⟨m, em, lm⟩
  have hbits : ∀ i, i < nb6 d (val strategy1 / 10) →
      ((∀ p ∈ D.zip xs, ∀ m, p.1[p.2 / 10]? = some m → bit6 m i = true) ↔
        otherAlgos.all (same6 d val (shift6 d (val strategy1 / 10) + i)) = true) := by
    intro i hi
    rw [List.all_eq_true]
    constructor
    · intro h s hs
      obtain ⟨k, hk⟩ := List.getElem?_of_mem hs
      obtain ⟨M, eM, hM⟩ := hD k _ hk
      obtain ⟨x, ex, hx⟩ := hxs k _ hk
      have hss := otherAlgos_simple _ hs
      have := (hv _ hss).2
      have hiv := (interval6_simple _ hss).1
      obtain ⟨m, em, lm, hm⟩ := hM (x / 10) (by rw [hx, hiv]; omega)
      have := h (M, x) (List.mem_iff_getElem?.2 ⟨k, by rw [List.getElem?_zip_eq_some]; exact ⟨eM, ex⟩⟩) m em
      rw [hm i hi, hx] at this
      exact this
    · intro h p hp m em
      obtain ⟨k, hk⟩ := List.getElem?_of_mem hp
      rw [List.getElem?_zip_eq_some] at hk
      have hk' : k < otherAlgos.length := by
        have := (List.getElem?_eq_some_iff.1 hk.1).1
        omega
      obtain ⟨M, eM, hM⟩ := hD k _ (List.getElem?_eq_getElem hk')
      obtain ⟨x, ex, hx⟩ := hxs k _ (List.getElem?_eq_getElem hk')
      rw [hk.1, Option.some.injEq] at eM
      rw [hk.2, Option.some.injEq] at ex
      have hs := otherAlgos_simple _ (List.getElem_mem hk')
      have := (hv _ hs).2
      have hi' := (interval6_simple _ hs).1
      obtain ⟨m', em', lm, hm⟩ := hM (p.2 / 10) (by rw [ex, hx, hi']; omega)
      rw [← eM, em, Option.some.injEq] at em'
      rw [em', hm i hi, ex, hx]
      exact h _ (List.getElem_mem hk')
  have hcons : ∃ M x, D[0]? = some M ∧ xs[0]? = some x ∧ D.zip xs = (M, x) :: (D.zip xs).tail := by
    have l19 : otherAlgos.length = 19 := rfl
    cases D with
    | nil => simp [l19] at lD
    | cons M D =>
      cases xs with
      | nil => simp [l19] at lxs
      | cons x xs => exact ⟨M, x, rfl, rfl, rfl⟩
  obtain ⟨M, x, eM, ex, ez⟩ := hcons
  obtain ⟨acc, eacc, lacc⟩ := hzip (M, x) (by rw [ez]; simp)
  simp only at eacc
  obtain ⟨r, er, lr, hr⟩ := reduceMasks_ok (D.zip xs).tail acc lacc (fun p hp => hzip p (by rw [ez]; exact List.mem_cons_of_mem _ hp))
  have hacc : ∀ i, i < nb6 d (val strategy1 / 10) →
      (bit6 r i = true ↔ otherAlgos.all (same6 d val (shift6 d (val strategy1 / 10) + i)) = true) := by
    intro i hi
    rw [← hbits i hi, hr i]
    constructor
    · rintro ⟨a, b⟩ p hp m hm
      rw [ez] at hp
      rcases List.mem_cons.1 hp with rfl | hp
      · simp only at hm
        rw [eacc, Option.some.injEq] at hm
        exact hm ▸ a
      · exact b p hp m hm
    · intro h
      exact ⟨h (M, x) (by rw [ez]; simp) acc eacc, fun p hp => h p (by rw [ez]; exact List.mem_cons_of_mem _ hp)⟩
  have hn1 := hc.len strategy1 h1
  have hrange : shift6 d (val strategy1 / 10) + nb6 d (val strategy1 / 10) ≤ n := by
    have := near_range_le (d.col strategy1) (val strategy1 / 10)
    rw [hn1] at this
    exact this
  have hsm := hc.small
  -- the probability of a row
  have hprob : ∀ j, j < n → ∃ p, probFrom j (((strategy1 :: otherAlgos).zip (val strategy1 :: xs)).map fun p =>
      (d.col p.1, interval6 p.1 / 10, p.2)) ⟨1, 1⟩ = .ok p ∧ p.Crisp (simpleStrats.all (same6 d val j)) := by
    intro j hj
    have hmem : ∀ p ∈ (strategy1 :: otherAlgos).zip (val strategy1 :: xs), p.1 ∈ simpleStrats ∧ p.2 = val p.1 := by
      intro p hp
      rw [List.zip_cons_cons, List.mem_cons] at hp
      rcases hp with rfl | hp
      · exact ⟨h1, rfl⟩
      · obtain ⟨k, hk⟩ := List.getElem?_of_mem hp
        rw [List.getElem?_zip_eq_some] at hk
        obtain ⟨x, ex, hx⟩ := hxs k _ hk.1
        rw [hk.2, Option.some.injEq] at ex
        exact ⟨otherAlgos_simple _ (List.mem_of_getElem? hk.1), by rw [ex, hx]⟩
    obtain ⟨p, e, hp⟩ := probFrom_ok j (((strategy1 :: otherAlgos).zip (val strategy1 :: xs)).map fun p =>
      (d.col p.1, interval6 p.1 / 10, p.2)) ⟨1, 1⟩ true ⟨by decide, rfl⟩ (by
      intro q hq
      obtain ⟨p, hp, rfl⟩ := List.mem_map.1 hq
      obtain ⟨hs, hp2⟩ := hmem p hp
      have hi := (interval6_simple _ hs).2
      have hk := (hv _ hs).2
      have hk200 : p.1.1.k ≤ 200 := by
        have : ∀ s ∈ simpleStrats, s.1.k ≤ 200 := by decide
        exact this _ hs
      have hj' : j < (d.col p.1).length := by rw [hc.len _ hs]; exact hj
      exact ⟨by simp only; omega, by simp only [hp2, W32]; omega, _, List.getElem?_eq_getElem hj',
        hc.lt _ hs _ (List.getElem_mem hj')⟩)
    refine ⟨p, e, ?_⟩
    have hall : (((strategy1 :: otherAlgos).zip (val strategy1 :: xs)).map fun p =>
        (d.col p.1, interval6 p.1 / 10, p.2)).all (fun q => decide (q.1.getD j 0 / 10 = q.2.2 / 10)) =
        simpleStrats.all (same6 d val j) := by
      rw [Bool.eq_iff_iff, List.all_eq_true, List.all_eq_true]
      constructor
      · intro h s hs
        have : (s, val s) ∈ (strategy1 :: otherAlgos).zip (val strategy1 :: xs) := by
          rw [List.zip_cons_cons, List.mem_cons]
          rcases simple_algos s hs with rfl | hs
          · exact .inl rfl
          · obtain ⟨k, hk⟩ := List.getElem?_of_mem hs
            obtain ⟨x, ex, hx⟩ := hxs k _ hk
            refine .inr (List.mem_iff_getElem?.2 ⟨k, ?_⟩)
            rw [List.getElem?_zip_eq_some]
            exact ⟨hk, by rw [ex, hx]⟩
        exact h _ (List.mem_map.2 ⟨_, this, rfl⟩)
      · intro h q hq
        obtain ⟨p, hp, rfl⟩ := List.mem_map.1 hq
        obtain ⟨hs, hp2⟩ := hmem p hp
        simp only [hp2]
        exact h _ hs
    rw [hall, Bool.true_and] at hp
    exact hp
  obtain ⟨ps, eps, lps, hps, hpw, hpm⟩ := collect6_ok (acc := r) (shift := shift6 d (val strategy1 / 10))
    (prob := fun i => probFrom i (((strategy1 :: otherAlgos).zip (val strategy1 :: xs)).map fun p =>
      (d.col p.1, interval6 p.1 / 10, p.2)) ⟨1, 1⟩) (Q := fun j p => p.Crisp (simpleStrats.all (same6 d val j)))
    (N := nb6 d (val strategy1 / 10)) (fun j _ hj => hprob j (by omega)) (by omega)
    (by intro i hi; rw [lr]; omega) (nb6 d (val strategy1 / 10)) 0 (by omega)
  refine ⟨ps, ?_, hpw, ?_, hps⟩
  · unfold candidates6
    rw [hx1.1, Res.ok_bind]
    have hto : (Value.num (val strategy1)).toNum = val strategy1 := rfl
    simp only [hto]
    rw [exs, Res.ok_bind, rd_of_getElem? (hb.nb _ hv20), Res.ok_bind, rd_of_getElem? eD, Res.ok_bind, rd_of_getElem? eM,
      Res.ok_bind, rd_of_getElem? ex, Res.ok_bind, rd_of_getElem? eacc, Res.ok_bind, er, Res.ok_bind,
      rd_of_getElem? (hb.shift _ hv20), Res.ok_bind, hb.datas, eps, Res.ok_bind, if_pos]
    · rfl
    · rw [hb.words]; omega
  · intro j
    rw [hpm j]
    have hnear : ∀ hj : j < n, near6 (val strategy1 / 10) ((d.col strategy1).getD j 0) = true ↔
        shift6 d (val strategy1 / 10) ≤ j ∧ j < shift6 d (val strategy1 / 10) + nb6 d (val strategy1 / 10) := by
      intro hj
      have := near_range hc.sorted (val strategy1 / 10) j (by rw [hn1]; exact hj)
      rw [List.getD_eq_getElem?_getD, List.getElem?_eq_getElem (by rw [hn1]; exact hj), Option.getD_some]
      exact this
    constructor
    · rintro ⟨a, b, c⟩
      have hj : j < n := by omega
      rw [hacc _ (by omega)] at c
      have : shift6 d (val strategy1 / 10) + (j - shift6 d (val strategy1 / 10)) = j := by omega
      rw [this] at c
      exact ⟨hj, by rw [Bool.and_eq_true]; exact ⟨(hnear hj).2 ⟨by omega, b⟩, c⟩⟩
    · rintro ⟨hj, h⟩
      rw [Bool.and_eq_true] at h
      obtain ⟨a, b⟩ := (hnear hj).1 h.1
      refine ⟨by omega, b, ?_⟩
      rw [hacc _ (by omega)]
      have : shift6 d (val strategy1 / 10) + (j - shift6 d (val strategy1 / 10)) = j := by omega
      rw [this]
      exact h.2

end Ppocr

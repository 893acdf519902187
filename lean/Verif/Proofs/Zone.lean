import Verif.Proofs.Features
import Verif.Spec.Zone

namespace Ppocr
open Spec

/-! ### Paths -/

theorem adj_symm {w p q : Nat} (h : Adj w p q) : Adj w q p := by
  unfold Adj at *
  omega

theorem Spec.Conn.left {i : Image} {p q : Nat} (h : Conn i p q) : Bg i p := by
  induction h with
  | refl h => exact h
  | step _ _ _ _ _ ih => exact ih

theorem Spec.Conn.right {i : Image} {p q : Nat} (h : Conn i p q) : Bg i q := by
  cases h with
  | refl h => exact h
  | step _ _ _ _ h => exact h

theorem Spec.Conn.trans {i : Image} {p q r : Nat} (h1 : Conn i p q) (h2 : Conn i q r) : Conn i p r := by
  induction h2 with
  | refl => exact h1
  | step _ a b ha hb ih => exact Conn.step _ _ _ ih ha hb

theorem Spec.Conn.symm {i : Image} {p q : Nat} (h : Conn i p q) : Conn i q p := by
  induction h with
  | refl h => exact Conn.refl _ h
  | step a b hc ha hb ih =>
    exact Conn.trans (Conn.step _ _ _ (Conn.refl _ hb) (adj_symm ha) hc.right) ih

/-! ### Positions -/

theorem divmod {w x y : Nat} (hx : x < w) : (y * w + x) / w = y ∧ (y * w + x) % w = x := by
  have hw : 0 < w := by omega
  constructor
  · rw [Nat.mul_comm, Nat.mul_add_div hw, Nat.div_eq_of_lt hx, Nat.add_zero]
  · rw [Nat.mul_comm, Nat.mul_add_mod, Nat.mod_eq_of_lt hx]

theorem pos_split {w h p : Nat} (hp : p < w * h) :
    0 < w ∧ p % w < w ∧ p / w < h ∧ p = p / w * w + p % w := by
  have hw : 0 < w := by
    apply Classical.byContradiction
    intro hn
    have : w = 0 := by omega
    subst this
    rw [Nat.zero_mul] at hp
    omega
  refine ⟨hw, Nat.mod_lt _ hw, ?_, ?_⟩
  · rw [Nat.div_lt_iff_lt_mul hw, Nat.mul_comm]
    exact hp
  · have := Nat.div_add_mod p w
    rw [Nat.mul_comm] at this
    omega

theorem adj_cases {w h p q : Nat} (hp : p < w * h) (hq : q < w * h) :
    Adj w p q ↔ (p / w ≠ 0 ∧ q = p - w) ∨ (p / w + 1 ≠ h ∧ q = p + w) ∨
      (p % w ≠ 0 ∧ q = p - 1) ∨ (p % w + 1 ≠ w ∧ q = p + 1) := by
  obtain ⟨hw, hx, hy, hpe⟩ := pos_split hp
  obtain ⟨_, hx', hy', hqe⟩ := pos_split hq
  generalize p % w = x at *
  generalize p / w = y at *
  generalize q % w = x' at *
  generalize q / w = y' at *
  subst hpe hqe
  unfold Adj
  rw [divmod hx |>.1, divmod hx |>.2, divmod hx' |>.1, divmod hx' |>.2]
  constructor
  · rintro (⟨rfl, rfl | rfl⟩ | ⟨rfl, rfl | rfl⟩)
    · right; right; left; omega
    · right; right; right; omega
    · left
      rw [Nat.add_mul]
      omega
    · right; left
      rw [Nat.add_mul]
      omega
  · rintro (⟨h1, h2⟩ | ⟨h1, h2⟩ | ⟨h1, h2⟩ | ⟨h1, h2⟩)
    · right
      obtain ⟨k, rfl⟩ : ∃ k, y = k + 1 := ⟨y - 1, by omega⟩
      have e : y' * w + x' = k * w + x := by
        rw [h2, Nat.add_mul]; omega
      have e1 := divmod hx' (y := y')
      have e2 := divmod hx (y := k)
      rw [e] at e1
      omega
    · right
      have e : y' * w + x' = (y + 1) * w + x := by
        rw [h2, Nat.add_mul]; omega
      have e1 := divmod hx' (y := y')
      have e2 := divmod hx (y := y + 1)
      rw [e] at e1
      omega
    · left
      have e : y' * w + x' = y * w + (x - 1) := by omega
      have e1 := divmod hx' (y := y')
      have e2 := divmod (show x - 1 < w by omega) (y := y)
      rw [e] at e1
      omega
    · left
      have e : y' * w + x' = y * w + (x + 1) := by omega
      have e1 := divmod hx' (y := y')
      have e2 := divmod (show x + 1 < w by omega) (y := y)
      rw [e] at e1
      omega

theorem bg_data {i : Image} (wf : i.WF) {p : Nat} (hp : p < i.bounds.w * i.bounds.h) :
    ∃ v, rd i.data p = .ok v ∧ (isLetter v = false ↔ Bg i p) := by
  obtain ⟨hw, hx, hy, hpe⟩ := pos_split hp
  obtain ⟨v, h1, h2⟩ := rd_letter wf hx hy hpe
  refine ⟨v, h1, ?_⟩
  unfold Bg
  rw [h2]
  exact ⟨fun h => ⟨hp, h⟩, fun h => h.2⟩

/-! ### The flood fill -/

/-- Label of position `p`, 0 if there is none. -/
def lab (m : List Nat) (p : Nat) : Nat := m[p]?.getD 0

theorem lab_set {m : List Nat} {p : Nat} (hp : p < m.length) (v q : Nat) :
    lab (m.set p v) q = if p = q then v else lab m q := by
  unfold lab
  rw [List.getElem?_set]
  split
  · rename_i e; subst e; simp
  · rfl

theorem rd_lab {m : List Nat} {p : Nat} (hp : p < m.length) : rd m p = .ok (lab m p) := by
  rw [rd_of_lt hp]
  simp [lab, hp]

theorem lab_ge {m : List Nat} {p : Nat} (hp : m.length ≤ p) : lab m p = 0 := by
  simp [lab, List.getElem?_eq_none hp]

/-- Invariant of the flood fill that started at `s`, is working on `c` and had the labels `m0` before. -/
structure FInv (i : Image) (m0 : List Nat) (z s c N : Nat) (st : Fill) : Prop where
  len : st.mirror.length = i.bounds.w * i.bounds.h
  keep : ∀ p, lab m0 p ≠ 0 → lab st.mirror p = lab m0 p
  new : ∀ p, lab m0 p = 0 → lab st.mirror p ≠ 0 → lab st.mirror p = z ∧ Conn i s p
  work : ∀ q, (q = c ∨ q ∈ st.stack) → lab m0 q = 0 ∧ lab st.mirror q = z
  done : ∀ p, lab m0 p = 0 → lab st.mirror p = z → p ≠ c → p ∉ st.stack →
    ∀ q, Adj i.bounds.w p q → Bg i q → lab st.mirror q ≠ 0
  room : st.mirror.count 0 + st.stack.length ≤ N

theorem pushIf_ok {i : Image} (wf : i.WF) {m0 : List Nat} {z s c N cap q : Nat} {st : Fill}
    (hz : z ≠ 0) (inv : FInv i m0 z s c N st) (hcap : N < cap) (ha : Adj i.bounds.w c q)
    (hq : q < i.bounds.w * i.bounds.h) :
    ∃ st', pushIf i.data z cap q st = .ok st' ∧ FInv i m0 z s c N st' ∧
      (∀ p, lab st.mirror p ≠ 0 → lab st'.mirror p ≠ 0) ∧ (Bg i q → lab st'.mirror q ≠ 0) := by
  have hql : q < st.mirror.length := by rw [inv.len]; exact hq
  unfold pushIf
  rw [rd_lab hql]
  simp only [Res.ok_bind]
  by_cases hm : lab st.mirror q = 0
  · rw [if_neg (by simp [hm])]
    obtain ⟨v, hv, hbg⟩ := bg_data wf hq
    rw [hv]
    simp only [Res.ok_bind]
    cases hl : isLetter v
    · have hb : Bg i q := hbg.1 hl
      have hroom := inv.room
      have hset := lab_set (m := st.mirror) hql z
      rw [if_neg (by simp), if_pos (by omega)]
      refine ⟨_, rfl, ⟨?_, ?_, ?_, ?_, ?_, ?_⟩, ?_, ?_⟩
      · simp [inv.len]
      · intro p hp
        rw [hset p]
        split
        · rename_i e; subst e
          have := inv.keep q hp
          omega
        · exact inv.keep p hp
      · intro p hp hp'
        rw [hset p] at hp' ⊢
        split
        · rename_i e; subst e
          have hc := inv.work c (Or.inl rfl)
          refine ⟨rfl, Conn.step _ c _ (inv.new c hc.1 (by rw [hc.2]; exact hz)).2 ha hb⟩
        · rename_i e
          rw [if_neg e] at hp'
          exact inv.new p hp hp'
      · intro p hp
        have hm0 : lab m0 q = 0 := by
          apply Classical.byContradiction
          intro hn
          have := inv.keep q hn
          omega
        rw [hset p]
        by_cases e : q = p
        · subst e
          rw [if_pos rfl]
          exact ⟨hm0, rfl⟩
        · rw [if_neg e]
          apply inv.work
          rcases hp with hp | hp
          · exact Or.inl hp
          · right
            rcases List.mem_cons.1 hp with hp | hp
            · exact absurd hp.symm e
            · exact hp
      · intro p hp hpz hpc hps r har hbr
        have e : q ≠ p := fun e => hps (by rw [e]; exact List.mem_cons_self)
        rw [hset p, if_neg e] at hpz
        have := inv.done p hp hpz hpc (fun h => hps (List.mem_cons_of_mem _ h)) r har hbr
        rw [hset r]
        split
        · exact hz
        · exact this
      · show (st.mirror.set q z).count 0 + (q :: st.stack).length ≤ N
        have hg : st.mirror[q] = 0 := by
          have := hm
          simp [lab, hql] at this
          exact this
        rw [List.count_set hql, hg]
        have hz' : (z == 0) = false := by simp [hz]
        have hpos : 0 < st.mirror.count 0 := by
          rw [List.count_pos_iff]
          rw [← hg]
          exact List.getElem_mem hql
        simp only [hz', List.length_cons]
        simp
        omega
      · intro p hp
        rw [hset p]
        split
        · exact hz
        · exact hp
      · intro _
        rw [hset q, if_pos rfl]
        exact hz
    · rw [if_pos rfl]
      refine ⟨st, rfl, inv, fun p h => h, ?_⟩
      intro hb
      have := hbg.2 hb
      rw [hl] at this
      exact absurd this (by decide)
  · rw [if_pos hm]
    exact ⟨st, rfl, inv, fun p h => h, fun _ => hm⟩

theorem pushWhen_ok {i : Image} (wf : i.WF) {m0 : List Nat} {z s c N cap q : Nat} {st : Fill} {b : Bool}
    (hz : z ≠ 0) (inv : FInv i m0 z s c N st) (hcap : N < cap)
    (ha : b = true → Adj i.bounds.w c q ∧ q < i.bounds.w * i.bounds.h) :
    ∃ st', pushWhen b i.data z cap q st = .ok st' ∧ FInv i m0 z s c N st' ∧
      (∀ p, lab st.mirror p ≠ 0 → lab st'.mirror p ≠ 0) ∧
      (b = true → Bg i q → lab st'.mirror q ≠ 0) := by
  unfold pushWhen
  cases b
  · exact ⟨st, rfl, inv, fun p h => h, fun h => by simp at h⟩
  · obtain ⟨h1, h2⟩ := ha rfl
    obtain ⟨st', e1, e2, e3, e4⟩ := pushIf_ok wf hz inv hcap h1 h2
    exact ⟨st', e1, e2, e3, fun _ => e4⟩

theorem fillStep_ok {i : Image} (wf : i.WF) {m0 : List Nat} {z s c N cap : Nat} {st : Fill}
    (hz : z ≠ 0) (inv : FInv i m0 z s c N st) (hcap : N < cap) (hc : c < i.bounds.w * i.bounds.h) :
    ∃ st', fillStep i z cap c st = .ok st' ∧ FInv i m0 z s c N st' ∧
      (∀ p, lab st.mirror p ≠ 0 → lab st'.mirror p ≠ 0) ∧
      (∀ q, Adj i.bounds.w c q → Bg i q → lab st'.mirror q ≠ 0) := by
  obtain ⟨hw, hx, hy, hce⟩ := pos_split hc
  have hs := wf.small
  have hwl := wf.w_lt
  have hhl := wf.h_lt
  have adj := fun q (hq : q < i.bounds.w * i.bounds.h) => adj_cases hc hq
  -- up
  have up : decide (c / i.bounds.w ≠ 0) = true →
      usub c i.bounds.w = c - i.bounds.w ∧ c - i.bounds.w < i.bounds.w * i.bounds.h := by
    intro h
    have h := of_decide_eq_true h
    have : i.bounds.w ≤ c := by
      have h2 : 1 * i.bounds.w ≤ c / i.bounds.w * i.bounds.w :=
        Nat.mul_le_mul_right _ (Nat.pos_of_ne_zero h)
      omega
    exact ⟨usub_eq (by omega) this, by omega⟩
  have down : decide (uadd (c / i.bounds.w) 1 ≠ i.bounds.h) = true →
      c / i.bounds.w + 1 ≠ i.bounds.h ∧ uadd c i.bounds.w = c + i.bounds.w ∧
        c + i.bounds.w < i.bounds.w * i.bounds.h := by
    intro h
    have h := of_decide_eq_true h
    rw [uadd_eq (by omega)] at h
    have : (c / i.bounds.w + 1 + 1) * i.bounds.w ≤ i.bounds.h * i.bounds.w :=
      Nat.mul_le_mul_right _ (by omega)
    rw [Nat.add_mul, Nat.add_mul, Nat.one_mul, Nat.mul_comm i.bounds.h] at this
    have h3 : c + i.bounds.w < i.bounds.w * i.bounds.h := by omega
    exact ⟨h, uadd_eq (by omega), h3⟩
  have left : decide (c % i.bounds.w ≠ 0) = true →
      usub c 1 = c - 1 ∧ c - 1 < i.bounds.w * i.bounds.h := by
    intro h
    have h := of_decide_eq_true h
    exact ⟨usub_eq (by omega) (by omega), by omega⟩
  have right : decide (uadd (c % i.bounds.w) 1 ≠ i.bounds.w) = true →
      c % i.bounds.w + 1 ≠ i.bounds.w ∧ uadd c 1 = c + 1 ∧ c + 1 < i.bounds.w * i.bounds.h := by
    intro h
    have h := of_decide_eq_true h
    rw [uadd_eq (by omega)] at h
    have : (c / i.bounds.w + 1) * i.bounds.w ≤ i.bounds.h * i.bounds.w :=
      Nat.mul_le_mul_right _ (by omega)
    rw [Nat.add_mul, Nat.one_mul, Nat.mul_comm i.bounds.h] at this
    have h3 : c + 1 < i.bounds.w * i.bounds.h := by omega
    exact ⟨h, uadd_eq (by omega), h3⟩
  have hup1 : c / i.bounds.w + 1 < W32 := by
    generalize c / i.bounds.w = y at hy
    omega
  have hrt1 : c % i.bounds.w + 1 < W32 := by omega
  unfold fillStep
  simp only
  rw [if_neg (by omega)]
  obtain ⟨s1, e1, i1, m1, b1⟩ := pushWhen_ok wf (b := decide (c / i.bounds.w ≠ 0))
    (q := usub c i.bounds.w) hz inv hcap (by
      intro h
      obtain ⟨h1, h2⟩ := up h
      rw [h1]
      exact ⟨(adj _ h2).2 (Or.inl ⟨of_decide_eq_true h, rfl⟩), h2⟩)
  rw [e1]
  simp only [Res.ok_bind]
  obtain ⟨s2, e2, i2, m2, b2⟩ := pushWhen_ok wf (b := decide (uadd (c / i.bounds.w) 1 ≠ i.bounds.h))
    (q := uadd c i.bounds.w) hz i1 hcap (by
      intro h
      obtain ⟨h0, h1, h2⟩ := down h
      rw [h1]
      exact ⟨(adj _ h2).2 (Or.inr (Or.inl ⟨h0, rfl⟩)), h2⟩)
  rw [e2]
  simp only [Res.ok_bind]
  obtain ⟨s3, e3, i3, m3, b3⟩ := pushWhen_ok wf (b := decide (c % i.bounds.w ≠ 0))
    (q := usub c 1) hz i2 hcap (by
      intro h
      obtain ⟨h1, h2⟩ := left h
      rw [h1]
      exact ⟨(adj _ h2).2 (Or.inr (Or.inr (Or.inl ⟨of_decide_eq_true h, rfl⟩))), h2⟩)
  rw [e3]
  simp only [Res.ok_bind]
  obtain ⟨s4, e4, i4, m4, b4⟩ := pushWhen_ok wf (b := decide (uadd (c % i.bounds.w) 1 ≠ i.bounds.w))
    (q := uadd c 1) hz i3 hcap (by
      intro h
      obtain ⟨h0, h1, h2⟩ := right h
      rw [h1]
      exact ⟨(adj _ h2).2 (Or.inr (Or.inr (Or.inr ⟨h0, rfl⟩))), h2⟩)
  refine ⟨s4, e4, i4, fun p h => m4 _ (m3 _ (m2 _ (m1 _ h))), ?_⟩
  intro q ha hb
  rcases (adj q hb.1).1 ha with ⟨h1, h2⟩ | ⟨h1, h2⟩ | ⟨h1, h2⟩ | ⟨h1, h2⟩
  · have hd : decide (c / i.bounds.w ≠ 0) = true := decide_eq_true h1
    have := b1 hd (by rw [(up hd).1, ← h2]; exact hb)
    rw [(up hd).1, ← h2] at this
    exact m4 _ (m3 _ (m2 _ this))
  · have hd : decide (uadd (c / i.bounds.w) 1 ≠ i.bounds.h) = true := by
      apply decide_eq_true
      rw [uadd_eq hup1]
      exact h1
    have := b2 hd (by rw [(down hd).2.1, ← h2]; exact hb)
    rw [(down hd).2.1, ← h2] at this
    exact m4 _ (m3 _ this)
  · have hd : decide (c % i.bounds.w ≠ 0) = true := decide_eq_true h1
    have := b3 hd (by rw [(left hd).1, ← h2]; exact hb)
    rw [(left hd).1, ← h2] at this
    exact m4 _ this
  · have hd : decide (uadd (c % i.bounds.w) 1 ≠ i.bounds.w) = true := by
      apply decide_eq_true
      rw [uadd_eq hrt1]
      exact h1
    have := b4 hd (by rw [(right hd).2.1, ← h2]; exact hb)
    rw [(right hd).2.1, ← h2] at this
    exact this

/-- Zones already labelled are complete. -/
def Closed (i : Image) (m : List Nat) : Prop :=
  ∀ p q, lab m p ≠ 0 → Adj i.bounds.w p q → Bg i q → lab m q = lab m p

theorem fillLoop_ok {i : Image} (wf : i.WF) {m0 : List Nat} {z s cap : Nat} (hz : z ≠ 0) (fuel : Nat) :
    ∀ (c N : Nat) (st : Fill), N < fuel → N < cap → FInv i m0 z s c N st →
    ∃ m, fillLoop i z cap fuel c st = .ok m ∧ m.length = i.bounds.w * i.bounds.h ∧
      (∀ p, lab m0 p ≠ 0 → lab m p = lab m0 p) ∧
      (∀ p, lab m0 p = 0 → lab m p ≠ 0 → lab m p = z ∧ Conn i s p) ∧
      (∀ p, lab m0 p = 0 → lab m p = z → ∀ q, Adj i.bounds.w p q → Bg i q → lab m q ≠ 0) ∧
      (∀ p, lab st.mirror p = z → lab m0 p = 0 → lab m p = z) := by
  induction fuel with
  | zero => intro c N st h; omega
  | succ fuel ih =>
    intro c N st hN hcap inv
    have hcw := inv.work c (Or.inl rfl)
    have hc : c < i.bounds.w * i.bounds.h := by
      rw [← inv.len]
      apply Classical.byContradiction
      intro hn
      have := lab_ge (m := st.mirror) (p := c) (by omega)
      omega
    obtain ⟨st', e, inv', hm, hn⟩ := fillStep_ok wf hz inv hcap hc
    unfold fillLoop
    rw [e]
    simp only [Res.ok_bind]
    have hmono : ∀ p, lab st.mirror p = z → lab m0 p = 0 → lab st'.mirror p = z := by
      intro p h1 h2
      exact (inv'.new p h2 (hm p (by omega))).1
    cases hst : st'.stack with
    | nil =>
      simp only [Res.pure_eq]
      refine ⟨_, rfl, inv'.len, inv'.keep, inv'.new, ?_, hmono⟩
      intro p hp hpz q ha hb
      by_cases hpc : p = c
      · subst hpc
        exact hn q ha hb
      · exact inv'.done p hp hpz hpc (by rw [hst]; simp) q ha hb
    | cons q rest =>
      simp only
      have hroom := inv'.room
      rw [hst, List.length_cons] at hroom
      obtain ⟨m, h1, h2, h3, h4, h5, h6⟩ := ih q (N - 1) ⟨st'.mirror, rest⟩ (by omega) (by omega)
        ⟨inv'.len, inv'.keep, inv'.new, (by
          intro p hp
          apply inv'.work
          rw [hst]
          right
          rcases hp with hp | hp
          · rw [hp]; exact List.mem_cons_self
          · exact List.mem_cons_of_mem _ hp), (by
          intro p hp hpz hpq hps r ha hb
          by_cases hpc : p = c
          · subst hpc
            exact hn r ha hb
          · refine inv'.done p hp hpz hpc ?_ r ha hb
            rw [hst]
            intro hmem
            rcases List.mem_cons.1 hmem with hmem | hmem
            · exact hpq hmem
            · exact hps hmem), by simp only; omega⟩
      exact ⟨m, h1, h2, h3, h4, h5, fun p h1 h2 => h6 p (hmono p h1 h2) h2⟩

/-- What is known after the pixels before `p` have been visited; `F` are the starting points. -/
structure LInv (i : Image) (p : Nat) (m F : List Nat) : Prop where
  len : m.length = i.bounds.w * i.bounds.h
  closed : Closed i m
  few : F.length ≤ p
  labels : ∀ q, lab m q ≤ F.length
  iff : ∀ k f, F[k]? = some f → ∀ q, lab m q = k + 1 ↔ Conn i f q
  seen : ∀ q, q < p → Bg i q → lab m q ≠ 0
  first : ∀ f ∈ F, IsFirst i f ∧ f < p
  sorted : F.Pairwise (· < ·)

theorem labelled_bg {i : Image} {p : Nat} {m F : List Nat} (inv : LInv i p m F) {q : Nat}
    (hq : lab m q ≠ 0) : ∃ k f, F[k]? = some f ∧ lab m q = k + 1 ∧ Conn i f q := by
  have h1 := inv.labels q
  have h2 : lab m q - 1 < F.length := by omega
  refine ⟨lab m q - 1, F[lab m q - 1], by simp [h2], by omega, ?_⟩
  exact (inv.iff (lab m q - 1) _ (by simp [h2]) q).1 (by omega)

/-- Starting a new zone. -/
theorem fill_zone {i : Image} (wf : i.WF) {p cap : Nat} {m F : List Nat} (inv : LInv i p m F)
    (hp : p < i.bounds.w * i.bounds.h) (hb : Bg i p) (hm : lab m p = 0)
    (hcap : i.bounds.w * i.bounds.h < cap) :
    ∃ m', fillLoop i (F.length + 1) cap (i.bounds.area + 1) p ⟨m.set p (F.length + 1), []⟩ = .ok m' ∧
      LInv i (p + 1) m' (F ++ [p]) := by
  have hpl : p < m.length := by rw [inv.len]; exact hp
  have hset := lab_set (m := m) hpl (F.length + 1)
  have hzm : ∀ q, lab m q ≠ F.length + 1 := by
    intro q
    have := inv.labels q
    omega
  have hcount : (m.set p (F.length + 1)).count 0 ≤ i.bounds.w * i.bounds.h := by
    have := List.count_le_length (a := 0) (l := m.set p (F.length + 1))
    rw [List.length_set, inv.len] at this
    exact this
  obtain ⟨m', h1, h2, h3, h4, h5, h6⟩ := fillLoop_ok wf (m0 := m) (z := F.length + 1) (s := p)
    (cap := cap) (by omega) (i.bounds.area + 1) p (i.bounds.w * i.bounds.h)
    ⟨m.set p (F.length + 1), []⟩ (by rw [area_eq wf]; omega) hcap
    ⟨by simp [inv.len], by
      intro q hq
      rw [hset q, if_neg]
      intro e; subst e; exact hq hm, by
      intro q hq hq'
      rw [hset q] at hq' ⊢
      split
      · rename_i e; subst e; exact ⟨rfl, Conn.refl _ hb⟩
      · rename_i e; rw [if_neg e] at hq'; exact absurd hq hq', by
      intro q hq
      rcases hq with hq | hq
      · subst hq; rw [hset q, if_pos rfl]; exact ⟨hm, rfl⟩
      · simp at hq, by
      intro q hq hqz hqp
      rw [hset q, if_neg (fun e => hqp e.symm)] at hqz
      omega, by simpa using hcount⟩
  have hmp : lab m' p = F.length + 1 := h6 p (by rw [hset p, if_pos rfl]) hm
  -- the new label marks exactly the zone of `p`
  have hnew : ∀ q, lab m' q = F.length + 1 ↔ Conn i p q := by
    intro q
    constructor
    · intro hq
      have hq0 : lab m q = 0 := by
        apply Classical.byContradiction
        intro hn
        have := h3 q hn
        exact hzm q (by omega)
      exact (h4 q hq0 (by omega)).2
    · intro hc
      induction hc with
      | refl _ => exact hmp
      | step a b hca ha hb' ih =>
        have ha0 : lab m a = 0 := by
          apply Classical.byContradiction
          intro hn
          have := h3 a hn
          exact hzm a (by omega)
        have hb0 : lab m b = 0 := by
          apply Classical.byContradiction
          intro hn
          have := inv.closed b a hn (adj_symm ha) hca.right
          omega
        exact (h4 b hb0 (h5 a ha0 ih b ha hb')).1
  have hold : ∀ q, lab m' q ≠ F.length + 1 → lab m' q = lab m q := by
    intro q hq
    by_cases h0 : lab m q = 0
    · by_cases h1 : lab m' q = 0
      · omega
      · exact absurd (h4 q h0 h1).1 hq
    · exact h3 q h0
  refine ⟨m', h1, ⟨h2, ?_, ?_, ?_, ?_, ?_, ?_, ?_⟩⟩
  · intro a b ha hab hb'
    by_cases h0 : lab m' a = F.length + 1
    · rw [h0, hnew b]
      exact Conn.step _ a _ ((hnew a).1 h0) hab hb'
    · have e := hold a h0
      have := inv.closed a b (by omega) hab hb'
      rw [h3 b (by omega), e, this]
  · simp
    have := inv.few
    omega
  · intro q
    simp only [List.length_append, List.length_cons, List.length_nil]
    have := inv.labels q
    by_cases h0 : lab m' q = F.length + 1
    · omega
    · have := hold q h0
      omega
  · intro k f hk q
    rw [List.getElem?_append] at hk
    split at hk
    · rename_i hlt
      rw [← inv.iff k f hk q]
      constructor
      · intro h
        have := hold q (by omega)
        omega
      · intro h
        rw [h3 q (by omega)]
        exact h
    · rename_i hge
      have hk0 : k - F.length = 0 := by
        apply Classical.byContradiction
        intro hn
        rw [List.getElem?_eq_none (by simp; omega)] at hk
        exact absurd hk (by simp)
      rw [hk0] at hk
      simp at hk
      subst hk
      rw [show k + 1 = F.length + 1 by omega]
      exact hnew q
  · intro q hq hbq
    by_cases h0 : q = p
    · subst h0
      omega
    · have := inv.seen q (by omega) hbq
      rw [h3 q this]
      exact this
  · intro f hf
    rcases List.mem_append.1 hf with hf | hf
    · have := inv.first f hf
      exact ⟨this.1, by omega⟩
    · simp at hf
      subst hf
      refine ⟨⟨hb, ?_⟩, by omega⟩
      intro q hc
      apply Classical.byContradiction
      intro hn
      have h7 := inv.seen q (by omega) hc.right
      have h8 := (hnew q).2 hc
      have h9 := h3 q h7
      exact hzm q (by omega)
  · rw [List.pairwise_append]
    refine ⟨inv.sorted, by simp, ?_⟩
    intro a ha b hb'
    simp at hb'
    subst hb'
    exact (inv.first a ha).2

theorem labelLoop_ok {i : Image} (wf : i.WF) {cap : Nat} (hcap : i.bounds.w * i.bounds.h < cap)
    (hsz : i.bounds.w * i.bounds.h + 1 < W32) (n : Nat) :
    ∀ (p : Nat) (m F : List Nat), p + n = i.bounds.w * i.bounds.h → LInv i p m F →
    ∃ m' F', labelLoop i cap n p m (F.length + 1) = .ok (m', F'.length + 1) ∧
      LInv i (i.bounds.w * i.bounds.h) m' F' := by
  induction n with
  | zero =>
    intro p m F hp inv
    rw [Nat.add_zero] at hp
    subst hp
    exact ⟨m, F, rfl, inv⟩
  | succ n ih =>
    intro p m F hp inv
    have hpa : p < i.bounds.w * i.bounds.h := by omega
    have hpl : p < m.length := by rw [inv.len]; exact hpa
    have next : (Bg i p → lab m p ≠ 0) → LInv i (p + 1) m F := by
      intro h
      refine ⟨inv.len, inv.closed, by have := inv.few; omega, inv.labels, inv.iff, ?_, ?_, inv.sorted⟩
      · intro q hq hb
        by_cases e : q = p
        · subst e; exact h hb
        · exact inv.seen q (by omega) hb
      · intro f hf
        have := inv.first f hf
        exact ⟨this.1, by omega⟩
    unfold labelLoop
    rw [rd_lab hpl]
    simp only [Res.ok_bind]
    by_cases h0 : lab m p = 0
    · rw [if_neg (by simp [h0])]
      obtain ⟨v, hv, hbg⟩ := bg_data wf hpa
      rw [hv]
      simp only [Res.ok_bind]
      cases hl : isLetter v
      · have hb := hbg.1 hl
        obtain ⟨m', h1, h2⟩ := fill_zone wf inv hpa hb h0 hcap
        rw [if_neg (by simp), h1]
        simp only [Res.ok_bind]
        have hf := inv.few
        rw [uadd_eq (by omega)]
        have := ih (p + 1) m' (F ++ [p]) (by omega) h2
        rw [List.length_append] at this
        exact this
      · rw [if_pos rfl]
        apply ih (p + 1) m F (by omega)
        apply next
        intro hb
        have := hbg.2 hb
        rw [hl] at this
        exact absurd this (by decide)
    · rw [if_pos h0]
      exact ih (p + 1) m F (by omega) (next fun _ => h0)

theorem labelZones_ok {i : Image} (wf : i.WF) (hsz : 2 * (i.bounds.w * i.bounds.h) + 2 < W32) :
    ∃ m F, labelZones i = .ok (m, F.length) ∧ LInv i (i.bounds.w * i.bounds.h) m F := by
  have hzero : ∀ q, lab (List.replicate (i.bounds.w * i.bounds.h) 0) q = 0 := by
    intro q
    unfold lab
    rw [List.getElem?_replicate]
    split <;> rfl
  have h0 : LInv i 0 (List.replicate (i.bounds.w * i.bounds.h) 0) [] := by
    refine ⟨by simp, ?_, by simp, ?_, ?_, ?_, ?_, by simp⟩
    · intro a b ha
      exact absurd (hzero a) ha
    · intro q
      simp [hzero q]
    · intro k f hk
      simp at hk
    · intro q hq
      omega
    · intro f hf
      simp at hf
  obtain ⟨m, F, h1, h2⟩ := labelLoop_ok wf
    (cap := 2 * (i.bounds.w * i.bounds.h) + 2 - i.bounds.w * i.bounds.h) (by omega) (by omega)
    (i.bounds.w * i.bounds.h) 0 _ [] (by omega) h0
  refine ⟨m, F, ?_, h2⟩
  have hf := h2.few
  unfold labelZones
  simp only
  rw [area_eq wf, umul_eq (by omega), uadd_eq (by omega), Nat.min_eq_left (by omega),
    Nat.mul_comm _ 2]
  rw [show ([] : List Nat).length + 1 = 1 from rfl] at h1
  rw [h1]
  simp only [Res.ok_bind, Res.pure_eq]
  rw [usub_eq (by omega) (by omega), Nat.add_sub_cancel]

theorem zoneList_of {i : Image} {m F : List Nat} (inv : LInv i (i.bounds.w * i.bounds.h) m F) :
    ZoneList i F := by
  refine ⟨inv.sorted, ?_⟩
  intro p
  constructor
  · intro hp
    exact (inv.first p hp).1
  · intro hp
    obtain ⟨k, f, h1, h2, h3⟩ := labelled_bg inv (inv.seen p hp.1.1 hp.1)
    have h4 := hp.2 f h3.symm
    have hmem : f ∈ F := List.mem_of_getElem? h1
    have h5 := (inv.first f hmem).1.2 p h3
    have : p = f := by omega
    rw [this]
    exact hmem

/-! ### The border counters -/

/-- Cells among `pos 0 .. pos (n-1)` labelled `k+1`. -/
def cntTo (m : List Nat) (pos : Nat → Nat) (n k : Nat) : Nat :=
  (List.range n).countP fun j => lab m (pos j) == k + 1

theorem cntTo_succ (m : List Nat) (pos : Nat → Nat) (n k : Nat) :
    cntTo m pos (n + 1) k = cntTo m pos n k + if lab m (pos n) = k + 1 then 1 else 0 := by
  unfold cntTo
  rw [List.range_succ, List.countP_append]
  congr 1
  simp [List.countP_cons]

theorem cntTo_le (m : List Nat) (pos : Nat → Nat) (n k : Nat) : cntTo m pos n k ≤ n := by
  have := List.countP_le_length (p := fun j => lab m (pos j) == k + 1) (l := List.range n)
  simpa [cntTo] using this

theorem insertZone_ok {i : Image} {m : List Nat} {pos : Nat → Nat} {c n x y : Nat}
    (hlen : m.length = i.bounds.w * i.bounds.h) (hpos : i.toSizeT x y = pos n)
    (hlt : pos n < i.bounds.w * i.bounds.h) (hlab : ∀ q, lab m q ≤ c) (hn : n + 1 < W32)
    (hc : c < W32) :
    insertZone i m ((List.range c).map (cntTo m pos n)) x y =
      .ok ((List.range c).map (cntTo m pos (n + 1))) := by
  have hl := hlab (pos n)
  unfold insertZone
  rw [hpos, rd_lab (by omega)]
  simp only [Res.ok_bind]
  by_cases h0 : lab m (pos n) = 0
  · rw [if_neg (by simp [h0]), Res.pure_eq]
    congr 1
    apply List.map_congr_left
    intro k _
    rw [cntTo_succ, if_neg (by omega), Nat.add_zero]
  · rw [if_pos h0, usub_eq (by omega) (by omega)]
    have hk : lab m (pos n) - 1 < ((List.range c).map (cntTo m pos n)).length := by simp; omega
    have hle := cntTo_le m pos n (lab m (pos n) - 1)
    unfold bump
    rw [decide_eq_true hk, assert_true, rd_of_lt hk]
    simp only [Res.ok_bind, Res.pure_eq]
    rw [List.getElem_map, List.getElem_range, uadd_eq (by omega)]
    congr 1
    apply List.ext_getElem?
    intro k
    rw [List.getElem?_set]
    by_cases hkc : k < c
    · by_cases e : lab m (pos n) - 1 = k
      · rw [if_pos e, if_pos hk, List.getElem?_map, List.getElem?_range hkc]
        simp only [Option.map_some]
        rw [cntTo_succ, if_pos (by omega), e]
      · rw [if_neg e, List.getElem?_map, List.getElem?_map, List.getElem?_range hkc]
        simp only [Option.map_some]
        rw [cntTo_succ, if_neg (by omega), Nat.add_zero]
    · rw [if_neg (by omega), List.getElem?_eq_none (by simp; omega),
        List.getElem?_eq_none (by simp; omega)]

theorem borderRows_ok {i : Image} (wf : i.WF) (hh : 0 < i.bounds.h) {m : List Nat} {c : Nat}
    (hlen : m.length = i.bounds.w * i.bounds.h) (hlab : ∀ q, lab m q ≤ c) (hc : c < W32)
    (hwl : i.bounds.w + 1 < W32) (n : Nat) : ∀ x, x + n = i.bounds.w →
    borderRows i m n x ((List.range c).map (cntTo m (topPos i) x))
      ((List.range c).map (cntTo m (bottomPos i) x)) =
      .ok ((List.range c).map (cntTo m (topPos i) i.bounds.w),
        (List.range c).map (cntTo m (bottomPos i) i.bounds.w)) := by
  induction n with
  | zero => intro x hx; rw [← hx]; rfl
  | succ n ih =>
    intro x hx
    have h1 := idx_lt (x := x) (y := 0) (w := i.bounds.w) (h := i.bounds.h) (by omega) (by omega)
    have h2 := idx_lt (x := x) (y := i.bounds.h - 1) (w := i.bounds.w) (h := i.bounds.h) (by omega)
      (by omega)
    unfold borderRows
    rw [insertZone_ok hlen (pos := topPos i) (by
      rw [toSizeT_eq wf (by omega) (by omega)]; simp [topPos]) (by
      unfold topPos; omega) hlab (by omega) hc]
    simp only [Res.ok_bind]
    have hhl := wf.h_lt
    rw [usub_eq (by omega) (by omega)]
    rw [insertZone_ok hlen (pos := bottomPos i) (by
      rw [toSizeT_eq wf (by omega) (by omega)]; simp [bottomPos]) (by
      unfold bottomPos; omega) hlab (by omega) hc]
    simp only [Res.ok_bind]
    exact ih (x + 1) (by omega)

theorem borderCols_ok {i : Image} (wf : i.WF) (hw : 0 < i.bounds.w) {m : List Nat} {c : Nat}
    (hlen : m.length = i.bounds.w * i.bounds.h) (hlab : ∀ q, lab m q ≤ c) (hc : c < W32)
    (hhl : i.bounds.h + 1 < W32) (n : Nat) : ∀ y, y + n = i.bounds.h →
    borderCols i m n y ((List.range c).map (cntTo m (leftPos i) y))
      ((List.range c).map (cntTo m (rightPos i) y)) =
      .ok ((List.range c).map (cntTo m (leftPos i) i.bounds.h),
        (List.range c).map (cntTo m (rightPos i) i.bounds.h)) := by
  induction n with
  | zero => intro y hy; rw [← hy]; rfl
  | succ n ih =>
    intro y hy
    have h1 := idx_lt (x := 0) (y := y) (w := i.bounds.w) (h := i.bounds.h) (by omega) (by omega)
    have h2 := idx_lt (x := i.bounds.w - 1) (y := y) (w := i.bounds.w) (h := i.bounds.h) (by omega)
      (by omega)
    unfold borderCols
    rw [insertZone_ok hlen (pos := leftPos i) (by
      rw [toSizeT_eq wf (by omega) (by omega)]; simp [leftPos]) (by
      unfold leftPos; omega) hlab (by omega) hc]
    simp only [Res.ok_bind]
    have hwl := wf.w_lt
    rw [usub_eq (by omega) (by omega)]
    rw [insertZone_ok hlen (pos := rightPos i) (by
      rw [toSizeT_eq wf (by omega) (by omega)]; simp [rightPos]) (by
      unfold rightPos; omega) hlab (by omega) hc]
    simp only [Res.ok_bind]
    exact ih (y + 1) (by omega)

theorem cntTo_touch {i : Image} {p : Nat} {m F : List Nat} (inv : LInv i p m F) (pos : Nat → Nat)
    (n : Nat) : (List.range F.length).map (cntTo m pos n) = F.map (touch i pos n) := by
  apply List.ext_getElem?
  intro k
  by_cases hk : k < F.length
  · rw [List.getElem?_map, List.getElem?_map, List.getElem?_range hk, List.getElem?_eq_getElem hk]
    simp only [Option.map_some]
    congr 1
    apply List.countP_congr
    intro j _
    have := inv.iff k F[k] (by simp [hk]) (pos j)
    simp [this]
  · rw [List.getElem?_eq_none (by simp; omega), List.getElem?_eq_none (by simp; omega)]

theorem countZone_ok {i : Image} (wf : i.WF) (hw : 0 < i.bounds.w) (hh : 0 < i.bounds.h)
    (hsz : 4 * (i.bounds.w * i.bounds.h) < W32) :
    ∃ m F, LInv i (i.bounds.w * i.bounds.h) m F ∧
      countZone i = .ok ⟨F.length, F.map (topOf i), F.map (rightOf i), F.map (bottomOf i),
        F.map (leftOf i)⟩ := by
  have h1 : i.bounds.w * 1 ≤ i.bounds.w * i.bounds.h := Nat.mul_le_mul_left _ hh
  have h2 : 1 * i.bounds.h ≤ i.bounds.w * i.bounds.h := Nat.mul_le_mul_right _ hw
  have hbig : 2 * (i.bounds.w * i.bounds.h) + 2 < W32 := by simp only [W32] at *; omega
  have hbig2 : i.bounds.w * i.bounds.h + 1 < W32 := by omega
  obtain ⟨m, F, e, inv⟩ := labelZones_ok wf hbig
  refine ⟨m, F, inv, ?_⟩
  have hf := inv.few
  unfold countZone
  rw [e]
  simp only [Res.ok_bind]
  rw [if_pos (by omega)]
  have hz : ∀ pos, List.replicate F.length 0 = (List.range F.length).map (cntTo m pos 0) := by
    intro pos
    apply List.ext_getElem?
    intro k
    rw [List.getElem?_replicate, List.getElem?_map]
    split
    · rename_i hk
      rw [List.getElem?_range hk]
      rfl
    · rename_i hk
      rw [List.getElem?_eq_none (by simp; omega)]
      rfl
  have r1 := borderRows_ok wf hh inv.len inv.labels (by omega) (by omega) i.bounds.w 0 (by omega)
  have r2 := borderCols_ok wf hw inv.len inv.labels (by omega) (by omega) i.bounds.h 0 (by omega)
  rw [← hz, ← hz] at r1 r2
  rw [r1]
  simp only [Res.ok_bind]
  rw [r2]
  simp only [Res.ok_bind, Res.pure_eq]
  rw [cntTo_touch inv, cntTo_touch inv, cntTo_touch inv, cntTo_touch inv]
  rfl

/-! ### Sums over the zones -/

theorem sum_labels {m : List Nat} {c : Nat} (hlab : ∀ q, lab m q ≤ c) (pos : Nat → Nat) (n : Nat) :
    ((List.range c).map (cntTo m pos n)).sum =
      (List.range n).countP fun j => lab m (pos j) != 0 := by
  induction n with
  | zero =>
    have : (List.range c).map (cntTo m pos 0) = (List.range c).map fun _ => 0 :=
      List.map_congr_left fun _ _ => rfl
    rw [this]
    show sumTo c (fun _ => 0) = _
    rw [sumTo_const]
    simp
  | succ n ih =>
    rw [List.range_succ, List.countP_append, ← ih]
    show sumTo c (cntTo m pos (n + 1)) = sumTo c (cntTo m pos n) + _
    have : ∀ d, d ≤ c → sumTo d (cntTo m pos (n + 1)) = sumTo d (cntTo m pos n) +
        if lab m (pos n) ≠ 0 ∧ lab m (pos n) ≤ d then 1 else 0 := by
      intro d
      induction d with
      | zero =>
        intro _
        rw [if_neg (by omega)]
        rfl
      | succ d ihd =>
        intro hd
        rw [sumTo_last, sumTo_last, ihd (by omega), cntTo_succ]
        by_cases h1 : lab m (pos n) = d + 1
        · rw [if_neg (by omega), if_pos h1, if_pos (by omega)]
          omega
        · rw [if_neg h1]
          by_cases h2 : lab m (pos n) ≠ 0 ∧ lab m (pos n) ≤ d
          · rw [if_pos h2, if_pos (by omega)]; omega
          · rw [if_neg h2, if_neg (by omega)]; omega
    rw [this c (Nat.le_refl _)]
    congr 1
    have hl := hlab (pos n)
    by_cases h0 : lab m (pos n) = 0
    · simp [h0]
    · rw [if_pos ⟨h0, hl⟩]
      simp [h0]

theorem bg_label {i : Image} {m F : List Nat} (inv : LInv i (i.bounds.w * i.bounds.h) m F) (q : Nat) :
    lab m q ≠ 0 ↔ Bg i q := by
  constructor
  · intro h
    obtain ⟨_, _, _, _, hc⟩ := labelled_bg inv h
    exact hc.right
  · intro h
    exact inv.seen q h.1 h

open Classical in
theorem sum_touch {i : Image} {m F : List Nat} (inv : LInv i (i.bounds.w * i.bounds.h) m F)
    (pos : Nat → Nat) (n : Nat) :
    (F.map (touch i pos n)).sum = (List.range n).countP fun j => decide (Bg i (pos j)) := by
  rw [← cntTo_touch inv, sum_labels inv.labels]
  apply List.countP_congr
  intro j _
  have := bg_label inv (pos j)
  simp [this]

theorem sum_touch_le {i : Image} {m F : List Nat} (inv : LInv i (i.bounds.w * i.bounds.h) m F)
    (pos : Nat → Nat) (n : Nat) : (F.map (touch i pos n)).sum ≤ n := by
  classical
  rw [sum_touch inv]
  have := List.countP_le_length (p := fun j => decide (Bg i (pos j))) (l := List.range n)
  simpa using this

theorem range_getD (F : List Nat) : (List.range F.length).map (fun k => F.getD k 0) = F := by
  apply List.ext_getElem?
  intro k
  rw [List.getElem?_map]
  by_cases hk : k < F.length
  · rw [List.getElem?_range hk]
    simp [hk]
  · rw [List.getElem?_eq_none (by simp; omega), List.getElem?_eq_none (by omega)]
    rfl

theorem map_getD {g : Nat → Nat} {F : List Nat} {k : Nat} (hk : k < F.length) :
    (F.map g).getD k 0 = g (F.getD k 0) := by
  simp [hk]

/-- The zone information of a list of zones. -/
noncomputable def infoOf (i : Image) (F : List Nat) : ZoneInfo :=
  ⟨F.length, F.map (topOf i), F.map (rightOf i), F.map (bottomOf i), F.map (leftOf i)⟩

theorem totalUsed_eq (i : Image) (F : List Nat) [DecidablePred (OnBorder i)] :
    (infoOf i F).totalUsed = F.countP fun f => decide (OnBorder i f) := by
  unfold ZoneInfo.totalUsed infoOf
  have e : (List.range F.length).countP (fun k => decide (OnBorder i (F.getD k 0))) =
      F.countP fun f => decide (OnBorder i f) := by
    conv => { rhs; rw [← range_getD F] }
    rw [List.countP_map]
    rfl
  rw [← e]
  apply List.countP_congr
  intro k hk
  rw [List.mem_range] at hk
  simp only
  rw [map_getD hk, map_getD hk, map_getD hk, map_getD hk]
  simp [OnBorder, or_assoc]

theorem values_eq (i : Image) (F : List Nat) :
    (List.range F.length).map (infoOf i F).value = F.map (extent i) := by
  conv => { rhs; rw [← range_getD F] }
  rw [List.map_map]
  apply List.map_congr_left
  intro k hk
  rw [List.mem_range] at hk
  unfold ZoneInfo.value infoOf
  simp only [Function.comp]
  rw [map_getD hk, map_getD hk, map_getD hk, map_getD hk]
  rfl

theorem extent_ne {i : Image} {f : Nat} : extent i f ≠ 0 ↔ OnBorder i f := by
  unfold extent OnBorder
  split
  · simp_all
  · split
    · simp_all
    · split
      · simp_all
      · simp_all

theorem extent_le (i : Image) (f : Nat) :
    extent i f ≤ topOf i f + rightOf i f + bottomOf i f + leftOf i f := by
  unfold extent
  split
  · omega
  · split
    · omega
    · split <;> omega

theorem sum_extent_le {i : Image} {m F : List Nat} (inv : LInv i (i.bounds.w * i.bounds.h) m F) :
    (F.map (extent i)).sum ≤ 2 * i.bounds.w + 2 * i.bounds.h := by
  have h1 : (F.map (topOf i)).sum ≤ i.bounds.w := sum_touch_le inv (topPos i) i.bounds.w
  have h2 : (F.map (rightOf i)).sum ≤ i.bounds.h := sum_touch_le inv (rightPos i) i.bounds.h
  have h3 : (F.map (bottomOf i)).sum ≤ i.bounds.w := sum_touch_le inv (bottomPos i) i.bounds.w
  have h4 : (F.map (leftOf i)).sum ≤ i.bounds.h := sum_touch_le inv (leftPos i) i.bounds.h
  have : ∀ G : List Nat, (G.map (extent i)).sum ≤ (G.map (topOf i)).sum + (G.map (rightOf i)).sum +
      (G.map (bottomOf i)).sum + (G.map (leftOf i)).sum := by
    intro G
    induction G with
    | nil => simp
    | cons a G ih =>
      have := extent_le i a
      simp only [List.map_cons, List.sum_cons]
      omega
  have := this F
  omega

theorem extent_bound (i : Image) (f : Nat) : extent i f ≤ i.bounds.w + i.bounds.h := by
  classical
  have ht : ∀ pos n, touch i pos n f ≤ n := by
    intro pos n
    have := List.countP_le_length (p := fun k => decide (Conn i f (pos k))) (l := List.range n)
    simpa [touch] using this
  have h1 := ht (topPos i) i.bounds.w
  have h2 := ht (rightPos i) i.bounds.h
  have h3 := ht (bottomPos i) i.bounds.w
  have h4 := ht (leftPos i) i.bounds.h
  unfold extent topOf rightOf bottomOf leftOf
  split
  · omega
  · split
    · omega
    · split <;> omega

theorem foldl_uadd (l : List Nat) : ∀ a, a + l.sum < W32 → l.foldl uadd a = a + l.sum := by
  induction l with
  | nil => intro a _; simp
  | cons b l ih =>
    intro a h
    rw [List.sum_cons] at h ⊢
    rw [List.foldl_cons, uadd_eq (by omega), ih _ (by omega)]
    omega

theorem mapM_ok {α β : Type} (l : List α) (f : α → Res β) (g : α → β)
    (h : ∀ a ∈ l, f a = .ok (g a)) : l.mapM f = .ok (l.map g) := by
  induction l with
  | nil => rfl
  | cons a l ih =>
    rw [List.mapM_cons, h a List.mem_cons_self, ih fun b hb => h b (List.mem_cons_of_mem _ hb)]
    rfl

theorem le_sum_of_mem {l : List Nat} {a : Nat} (h : a ∈ l) : a ≤ l.sum := by
  induction l with
  | nil => exact absurd h (by simp)
  | cons b l ih =>
    rw [List.sum_cons]
    rcases List.mem_cons.1 h with e | h
    · omega
    · have := ih h
      omega

theorem sum_div_le (l : List Nat) (A : Nat) :
    (l.map fun n => n / A).sum ≤ l.sum / A := by
  induction l with
  | nil => simp
  | cons a l ih =>
    simp only [List.map_cons, List.sum_cons]
    by_cases hA : A = 0
    · subst hA; simp at *; exact ih
    · have h1 := Nat.div_mul_le_self a A
      have h2 := Nat.div_mul_le_self l.sum A
      rw [Nat.le_div_iff_mul_le (by omega), Nat.add_mul]
      have h3 := Nat.mul_le_mul_right A ih
      omega

/-- The list of first pixels is determined by the image. -/
theorem zoneList_unique {i : Image} {F G : List Nat} (hF : ZoneList i F) (hG : ZoneList i G) : F = G := by
  have key : ∀ (F G : List Nat), F.Pairwise (· < ·) → G.Pairwise (· < ·) → (∀ p, p ∈ F ↔ p ∈ G) →
      F = G := by
    intro F
    induction F with
    | nil =>
      intro G _ _ h
      cases G with
      | nil => rfl
      | cons b G => exact absurd ((h b).2 List.mem_cons_self) (by simp)
    | cons a F ih =>
      intro G h1 h2 h
      cases G with
      | nil => exact absurd ((h a).1 List.mem_cons_self) (by simp)
      | cons b G =>
        rw [List.pairwise_cons] at h1 h2
        have ha := (h a).1 List.mem_cons_self
        have hb := (h b).2 List.mem_cons_self
        have e : a = b := by
          rcases List.mem_cons.1 ha with e | ha
          · exact e
          · rcases List.mem_cons.1 hb with e | hb
            · exact e.symm
            · have := h1.1 b hb
              have := h2.1 a ha
              omega
        subst e
        congr 1
        apply ih G h1.2 h2.2
        intro p
        constructor
        · intro hp
          rcases List.mem_cons.1 ((h p).1 (List.mem_cons_of_mem _ hp)) with e | hp'
          · subst e
            have := h1.1 p hp
            omega
          · exact hp'
        · intro hp
          rcases List.mem_cons.1 ((h p).2 (List.mem_cons_of_mem _ hp)) with e | hp'
          · subst e
            have := h2.1 p hp
            omega
          · exact hp'
  exact key F G hF.sorted hG.sorted fun p => by rw [hF.mem p, hG.mem p]

end Ppocr

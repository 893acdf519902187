import Verif.Proofs.Turned

/-! # Zones of pictures in a mirror and upside down -/

namespace Ppocr
open Spec

/-- Every background pixel belongs to a zone, which has a first pixel. -/
theorem exists_first {i : Image} : ∀ {n p : Nat}, p ≤ n → Bg i p → ∃ f, IsFirst i f ∧ Conn i f p
  | n, p, hn, h => by
    by_cases hf : ∀ q, Conn i p q → p ≤ q
    · exact ⟨p, ⟨h, hf⟩, .refl p h⟩
    · have : ∃ q, Conn i p q ∧ q < p := by
        apply Classical.byContradiction
        intro hno
        exact hf fun q hq => by
          apply Classical.byContradiction
          intro hlt
          exact hno ⟨q, hq, by omega⟩
      obtain ⟨q, hq, hlt⟩ := this
      match n with
      | 0 => omega
      | n + 1 =>
        obtain ⟨f, h1, h2⟩ := exists_first (n := n) (p := q) (by omega) hq.right
        exact ⟨f, h1, h2.trans hq.symm⟩

theorem first_eq {i : Image} {f g : Nat} (hf : IsFirst i f) (hg : IsFirst i g) (h : Conn i f g) : f = g := by
  have := hf.2 g h
  have := hg.2 f h.symm
  omega

/-- The background of `j` is that of `i`, moved by `t`, with its neighbours. -/
structure Carries (i j : Image) (t s : Nat → Nat) : Prop where
  to : ∀ p, Bg i p → Bg j (t p)
  fro : ∀ q, Bg j q → Bg i (s q)
  ts : ∀ q, Bg j q → t (s q) = q
  st : ∀ p, Bg i p → s (t p) = p
  adj : ∀ p q, Bg i p → Bg i q → Adj i.bounds.w p q → Adj j.bounds.w (t p) (t q)
  adj' : ∀ p q, Bg j p → Bg j q → Adj j.bounds.w p q → Adj i.bounds.w (s p) (s q)

variable {i j : Image} {t s : Nat → Nat}

theorem Carries.symm (m : Carries i j t s) : Carries j i s t := ⟨m.fro, m.to, m.st, m.ts, m.adj', m.adj⟩

theorem Carries.conn (m : Carries i j t s) {p q : Nat} (h : Conn i p q) : Conn j (t p) (t q) := by
  induction h with
  | refl hp => exact .refl _ (m.to _ hp)
  | step q r h1 h2 h3 ih => exact .step _ _ _ ih (m.adj q r h1.right h3 h2) (m.to r h3)

theorem Carries.conn_iff (m : Carries i j t s) {p q : Nat} (hp : Bg i p) (hq : Bg j q) :
    Conn j (t p) q ↔ Conn i p (s q) := by
  constructor
  · intro h
    have := m.symm.conn h
    rwa [m.st p hp] at this
  · intro h
    have := m.conn h
    rwa [m.ts q hq] at this

/-- The zones of `j` are those of `i`, in another order and with other first pixels. -/
theorem zones_moved (m : Carries i j t s) {F G : List Nat} (hF : ZoneList i F) (hG : ZoneList j G) :
    ∃ u : Nat → Nat, G.Perm (F.map u) ∧ ∀ f ∈ F, ∀ q, Conn j (u f) q ↔ Bg j q ∧ Conn i f (s q) := by
  have hex : ∀ f, ∃ g, IsFirst i f → IsFirst j g ∧ Conn j g (t f) := by
    intro f
    by_cases hf : IsFirst i f
    · obtain ⟨g, h1, h2⟩ := exists_first (Nat.le_refl _) (m.to f hf.1)
      exact ⟨g, fun _ => ⟨h1, h2⟩⟩
    · exact ⟨0, fun h => absurd h hf⟩
  let u := fun f => Classical.choose (hex f)
  have hu : ∀ f, IsFirst i f → IsFirst j (u f) ∧ Conn j (u f) (t f) := fun f => Classical.choose_spec (hex f)
  have hc : ∀ f ∈ F, ∀ q, Conn j (u f) q ↔ Bg j q ∧ Conn i f (s q) := by
    intro f hf q
    have hff := (hF.mem f).1 hf
    obtain ⟨h1, h2⟩ := hu f hff
    constructor
    · intro h
      exact ⟨h.right, (m.conn_iff hff.1 h.right).1 (h2.symm.trans h)⟩
    · rintro ⟨hq, h⟩
      exact h2.trans ((m.conn_iff hff.1 hq).2 h)
  refine ⟨u, ?_, hc⟩
  have nF : F.Nodup := hF.sorted.imp fun h => Nat.ne_of_lt h
  have nG : G.Nodup := hG.sorted.imp fun h => Nat.ne_of_lt h
  have nu : (F.map u).Nodup := by
    unfold List.Nodup
    rw [List.pairwise_map]
    refine nF.imp_of_mem fun {a b} ha hb hab e => hab ?_
    have fa := (hF.mem a).1 ha
    have fb := (hF.mem b).1 hb
    have h1 := (hu a fa).2
    rw [e] at h1
    have h2 := (m.conn_iff fa.1 (m.to b fb.1)).1 (h1.symm.trans (hu b fb).2)
    rw [m.st b fb.1] at h2
    exact first_eq fa fb h2
  rw [List.perm_ext_iff_of_nodup nG nu]
  intro g
  rw [List.mem_map]
  constructor
  · intro hg
    have hgf := (hG.mem g).1 hg
    obtain ⟨f, h1, h2⟩ := exists_first (Nat.le_refl _) (m.fro g hgf.1)
    refine ⟨f, (hF.mem f).2 h1, ?_⟩
    exact first_eq (hu f h1).1 hgf ((hc f ((hF.mem f).2 h1) g).2 ⟨hgf.1, h2⟩)
  · rintro ⟨f, hf, rfl⟩
    exact (hG.mem _).2 (hu f ((hF.mem f).1 hf)).1

theorem touch_ne {i : Image} {pos : Nat → Nat} {n f : Nat} : touch i pos n f ≠ 0 ↔ ∃ k, k < n ∧ Conn i f (pos k) := by
  unfold touch
  rw [Ne, List.countP_eq_zero]
  constructor
  · intro h
    apply Classical.byContradiction
    intro hno
    refine h fun k hk hc => hno ⟨k, List.mem_range.1 hk, by simpa using hc⟩
  · rintro ⟨k, hk, hc⟩ h
    exact h k (List.mem_range.2 hk) (by simpa using hc)

/-- A zone touches a border of `j` when it touches the border of `i` from which that one comes. -/
theorem touch_moved {u : Nat → Nat} {F : List Nat}
    (hc : ∀ f ∈ F, ∀ q, Conn j (u f) q ↔ Bg j q ∧ Conn i f (s q)) (m : Carries i j t s) {pos pos' back : Nat → Nat} {n : Nat}
    (hb : ∀ k, k < n → back k < n) (h1 : ∀ k, k < n → s (pos' k) = pos (back k))
    (h2 : ∀ k, k < n → t (pos k) = pos' (back k)) {f : Nat} (hf : f ∈ F) :
    touch j pos' n (u f) ≠ 0 ↔ touch i pos n f ≠ 0 := by
  rw [touch_ne, touch_ne]
  constructor
  · rintro ⟨k, hk, h⟩
    have := ((hc f hf _).1 h).2
    rw [h1 k hk] at this
    exact ⟨_, hb k hk, this⟩
  · rintro ⟨k, hk, h⟩
    refine ⟨back k, hb k hk, (hc f hf _).2 ⟨?_, ?_⟩⟩
    · rw [← h2 k hk]
      exact m.to _ h.right
    · rw [← h2 k hk, m.st _ h.right]
      exact h

theorem place_split {w h p : Nat} (hp : p < w * h) : p % w < w ∧ p / w < h ∧ p = p / w * w + p % w := by
  have hw : 0 < w := by
    rcases Nat.eq_zero_or_pos w with rfl | h
    · simp at hp
    · exact h
  refine ⟨Nat.mod_lt _ hw, (Nat.div_lt_iff_lt_mul hw).2 (by rw [Nat.mul_comm]; exact hp), ?_⟩
  have := Nat.div_add_mod p w
  rw [Nat.mul_comm] at this
  omega

/-- A place moved in its picture: its column by `a`, its row by `b`. -/
def placed (w : Nat) (a b : Nat → Nat) (p : Nat) : Nat := b (p / w) * w + a (p % w)

theorem placed_split {w h p : Nat} {a b : Nat → Nat} (ha : ∀ x, x < w → a x < w) (hb : ∀ y, y < h → b y < h)
    (hp : p < w * h) :
    placed w a b p < w * h ∧ placed w a b p % w = a (p % w) ∧ placed w a b p / w = b (p / w) := by
  obtain ⟨h1, h2, _⟩ := place_split hp
  have hx := ha _ h1
  have hy := hb _ h2
  unfold placed
  refine ⟨?_, ?_, ?_⟩
  · have : (b (p / w) + 1) * w ≤ h * w := Nat.mul_le_mul_right _ hy
    rw [Nat.succ_mul] at this
    rw [Nat.mul_comm w h]
    omega
  · rw [Nat.mul_comm, Nat.mul_add_mod, Nat.mod_eq_of_lt hx]
  · rw [Nat.mul_comm, Nat.mul_add_div (by omega), Nat.div_eq_of_lt hx, Nat.add_zero]

/-- Moving columns and rows back and forth, so that neighbours stay neighbours. -/
theorem moved_placed {i j : Image} {a b : Nat → Nat} (hbd : j.bounds = i.bounds)
    (ha : ∀ x, x < i.bounds.w → a x < i.bounds.w ∧ a (a x) = x) (hb : ∀ y, y < i.bounds.h → b y < i.bounds.h ∧ b (b y) = y)
    (na : ∀ x, x + 1 < i.bounds.w → a x = a (x + 1) + 1 ∨ a (x + 1) = a x + 1)
    (nb : ∀ y, y + 1 < i.bounds.h → b y = b (y + 1) + 1 ∨ b (y + 1) = b y + 1)
    (hl : ∀ x y, x < i.bounds.w → y < i.bounds.h → letter j x y = letter i (a x) (b y)) :
    Carries i j (placed i.bounds.w a b) (placed i.bounds.w a b) := by
  have sp := fun p (hp : p < i.bounds.w * i.bounds.h) =>
    placed_split (a := a) (b := b) (fun x hx => (ha x hx).1) (fun y hy => (hb y hy).1) hp
  have inv : ∀ p, p < i.bounds.w * i.bounds.h → placed i.bounds.w a b (placed i.bounds.w a b p) = p := by
    intro p hp
    obtain ⟨h1, h2, h3⟩ := place_split hp
    obtain ⟨q1, q2, q3⟩ := sp p hp
    show b (placed i.bounds.w a b p / _) * _ + a (placed i.bounds.w a b p % _) = p
    rw [q2, q3, (ha _ h1).2, (hb _ h2).2]
    exact h3.symm
  have adj : ∀ p q, p < i.bounds.w * i.bounds.h → q < i.bounds.w * i.bounds.h → Adj i.bounds.w p q →
      Adj i.bounds.w (placed i.bounds.w a b p) (placed i.bounds.w a b q) := by
    intro p q hp hq h
    obtain ⟨p1, p2, _⟩ := place_split hp
    obtain ⟨q1, q2, _⟩ := place_split hq
    obtain ⟨_, p4, p5⟩ := sp p hp
    obtain ⟨_, q4, q5⟩ := sp q hq
    unfold Adj at h ⊢
    rw [p4, p5, q4, q5]
    rcases h with ⟨e, h⟩ | ⟨e, h⟩
    · refine .inl ⟨by rw [e], ?_⟩
      rcases h with h | h
      · have := na (q % i.bounds.w) (by omega)
        rw [← h] at this
        omega
      · have := na (p % i.bounds.w) (by omega)
        rw [← h] at this
        omega
    · refine .inr ⟨by rw [e], ?_⟩
      rcases h with h | h
      · have := nb (q / i.bounds.w) (by omega)
        rw [← h] at this
        omega
      · have := nb (p / i.bounds.w) (by omega)
        rw [← h] at this
        omega
  have lt : ∀ p, Bg j p → p < i.bounds.w * i.bounds.h := fun p h => by
    have := h.1
    rwa [hbd] at this
  refine ⟨?_, ?_, fun q hq => inv q (lt q hq), fun p hp => inv p hp.1, ?_, ?_⟩
  · intro p hp
    obtain ⟨h1, h2, h3⟩ := place_split hp.1
    obtain ⟨q1, q2, q3⟩ := sp p hp.1
    refine ⟨by rw [hbd]; exact q1, ?_⟩
    rw [hbd, q2, q3, hl _ _ (ha _ h1).1 (hb _ h2).1, (ha _ h1).2, (hb _ h2).2]
    exact hp.2
  · intro q hq
    have hq' := lt q hq
    obtain ⟨h1, h2, h3⟩ := place_split hq'
    obtain ⟨q1, q2, q3⟩ := sp q hq'
    refine ⟨q1, ?_⟩
    rw [q2, q3, ← hl _ _ h1 h2]
    have := hq.2
    rwa [hbd] at this
  · intro p q hp hq h
    rw [hbd]
    exact adj p q hp.1 hq.1 h
  · intro p q hp hq h
    rw [hbd] at h
    exact adj p q (lt p hp) (lt q hq) h

theorem placed_at {w x y : Nat} (a b : Nat → Nat) (hx : x < w) : placed w a b (y * w + x) = b y * w + a x := by
  unfold placed
  rw [(divmod hx).1, (divmod hx).2]

end Ppocr

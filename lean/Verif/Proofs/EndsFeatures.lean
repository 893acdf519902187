import Verif.Proofs.EndsBase
import Verif.Model.Datas

/-! # The features of any picture are computed in finitely many steps (C121)

Here the sizes are not those for which the features are defined (`Sized`): the picture may be empty, and the sums may wrap. -/

namespace Ppocr
open Spec

/-- The buffer has the cells that the bounds announce, less than 2^32. -/
structure AllCells (i : Image) : Prop where
  len : i.data.length = i.bounds.w * i.bounds.h
  small : i.bounds.w * i.bounds.h < W32

theorem AllCells.area {i : Image} (h : AllCells i) : i.bounds.area = i.bounds.w * i.bounds.h := Nat.mod_eq_of_lt h.small

/-- A pointer that goes by `w` from `p` meets `e` within `fuel` steps. -/
def Meets (p e w fuel : Nat) : Prop := ∃ k, e = p + k * w ∧ (k < fuel ∨ w = 0 ∧ 0 < fuel)

theorem Meets.pos {p e w : Nat} (h : Meets p e w 0) : False := by
  obtain ⟨k, _, h⟩ := h
  omega

theorem Meets.next {p e w fuel : Nat} (h : Meets p e w (fuel + 1)) (ne : p ≠ e) : Meets (p + w) e w fuel := by
  obtain ⟨k, e1, h⟩ := h
  cases k with
  | zero => simp at e1; exact absurd e1.symm ne
  | succ k =>
    rcases h with h | ⟨h, _⟩
    · refine ⟨k, ?_, .inl (by omega)⟩
      rw [e1, Nat.succ_mul]
      omega
    · rw [h] at e1
      simp at e1
      exact absurd e1.symm ne

theorem Meets.mul (p w k fuel : Nat) (hf : k * w < fuel) : Meets p (p + k * w) w fuel := by
  refine ⟨k, rfl, ?_⟩
  by_cases hw : w = 0
  · exact .inr ⟨hw, by omega⟩
  · have : k * 1 ≤ k * w := Nat.mul_le_mul_left k (by omega)
    exact .inl (by omega)

/-! ### Scans -/

instance addLettersEnds (data : List Pixel) (k : Nat) : ∀ n p c, Ends (addLetters data k n p c)
  | 0, _, _ => by unfold addLetters; infer_instance
  | n + 1, p, c => by
    have := addLettersEnds data k n (p + 1)
    unfold addLetters
    finishes

instance (data : List Pixel) (k p ep c : Nat) : Ends (scanLetters data k p ep c) := by
  unfold scanLetters
  finishes

instance allLettersEnds (data : List Pixel) : ∀ n p, Ends (allLetters data n p)
  | 0, _ => by unfold allLetters; infer_instance
  | n + 1, p => by
    have := allLettersEnds data n (p + 1)
    unfold allLetters
    finishes

instance (w k : Nat) : Ends (diagX w k) := by
  unfold diagX
  finishes

instance (b : Nat) (t : TopBottom) (d : Nat) : Ends (percent b t d) := by
  unfold percent
  finishes

instance (t : TopBottom) : Ends (ratio200 t) := by
  unfold ratio200
  finishes

theorem hbarLoop_ends {data : List Pixel} {w e : Nat} : ∀ {fuel p : Nat} (prev : Bool) (n : Nat), Meets p e w fuel →
    Ends (hbarLoop data w e fuel p prev n)
  | 0, _, _, _, h => h.pos.elim
  | fuel + 1, p, prev, n, h => by
    unfold hbarLoop
    split
    · infer_instance
    · rename_i ne
      exact Ends.bind' (by infer_instance) fun _ => hbarLoop_ends _ _ (h.next ne)

theorem boxGravityLoop_ends {data : List Pixel} {w ep : Nat} {isTop : Bool} : ∀ {fuel p : Nat} (h g : Nat), Meets p ep w fuel →
    Ends (boxGravityLoop data w ep isTop fuel p h g)
  | 0, _, _, _, h => h.pos.elim
  | fuel + 1, p, k, g, h => by
    unfold boxGravityLoop
    split
    · infer_instance
    · rename_i ne
      exact Ends.bind' (by infer_instance) fun _ => boxGravityLoop_ends _ _ (h.next ne)

theorem diagDirLoop_ends {data : List Pixel} {w bh ep : Nat} {isTop : Bool} : ∀ {fuel p : Nat} (ih d : Nat), Meets p ep w fuel →
    Ends (diagDirLoop data w bh ep isTop fuel p ih d)
  | 0, _, _, _, h => h.pos.elim
  | fuel + 1, p, k, g, h => by
    unfold diagDirLoop
    split
    · infer_instance
    · rename_i ne
      exact Ends.bind' (by infer_instance) fun _ => Ends.bind' (by infer_instance) fun _ => diagDirLoop_ends _ _ (h.next ne)

theorem diagDirAreaLoop_ends {w ep : Nat} : ∀ {fuel p : Nat} (ih a : Nat), Meets p ep w fuel →
    Ends (diagDirAreaLoop w ep fuel p ih a)
  | 0, _, _, _, h => h.pos.elim
  | fuel + 1, p, k, g, h => by
    unfold diagDirAreaLoop
    split
    · infer_instance
    · rename_i ne
      exact Ends.bind' (by infer_instance) fun _ => diagDirAreaLoop_ends _ _ (h.next ne)

theorem diagGravLoop_ends {data : List Pixel} {w bh ep : Nat} {isTop : Bool} : ∀ {fuel p : Nat} (ih c d : Nat),
    Meets p ep w fuel → Ends (diagGravLoop data w bh ep isTop fuel p ih c d)
  | 0, _, _, _, _, h => h.pos.elim
  | fuel + 1, p, k, c, g, h => by
    unfold diagGravLoop
    split
    · infer_instance
    · rename_i ne
      exact Ends.bind' (by infer_instance) fun _ => Ends.bind' (by infer_instance) fun _ => diagGravLoop_ends _ _ _ (h.next ne)

theorem diagGravAreaLoop_ends {w bh ep : Nat} : ∀ {fuel p : Nat} (ih a : Nat), Meets p ep w fuel →
    Ends (diagGravAreaLoop w bh ep fuel p ih a)
  | 0, _, _, _, h => h.pos.elim
  | fuel + 1, p, k, g, h => by
    unfold diagGravAreaLoop
    split
    · infer_instance
    · rename_i ne
      exact Ends.bind' (by infer_instance) fun _ => diagGravAreaLoop_ends _ _ (h.next ne)

/-! ### The halves -/

theorem AllCells.half {i : Image} (f : AllCells i) {ep : Nat} (h : i.dataAt 0 (i.bounds.h / 2) = .ok ep) :
    ep = i.bounds.h / 2 * i.bounds.w := by
  unfold Image.dataAt at h
  obtain ⟨_, _, h⟩ := Res.bind_eq_ok.1 h
  cases h
  have h1 : i.bounds.h / 2 * i.bounds.w ≤ i.bounds.h * i.bounds.w := Nat.mul_le_mul_right _ (Nat.div_le_self _ _)
  have h2 := f.small
  rw [Nat.mul_comm] at h2
  unfold Image.toSizeT uadd umul
  rw [Nat.add_zero, Nat.mod_mod]
  exact Nat.mod_eq_of_lt (by omega)

theorem AllCells.upper {i : Image} : Meets 0 (i.bounds.h / 2 * i.bounds.w) i.bounds.w (i.bounds.h / 2 * i.bounds.w + 1) := by
  have := Meets.mul 0 i.bounds.w (i.bounds.h / 2) (i.bounds.h / 2 * i.bounds.w + 1) (by omega)
  rwa [Nat.zero_add] at this

theorem AllCells.lower {i : Image} (f : AllCells i) :
    Meets (bottomStart i.bounds (i.bounds.h / 2 * i.bounds.w)) i.bounds.area i.bounds.w (i.bounds.area + 1) := by
  have h1 : i.bounds.h / 2 * i.bounds.w ≤ i.bounds.h * i.bounds.w := Nat.mul_le_mul_right _ (Nat.div_le_self _ _)
  have e : i.bounds.area = bottomStart i.bounds (i.bounds.h / 2 * i.bounds.w) + i.bounds.h / 2 * i.bounds.w := by
    rw [f.area]
    unfold bottomStart
    have e1 : i.bounds.w * i.bounds.h = (i.bounds.h % 2) * i.bounds.w + 2 * (i.bounds.h / 2 * i.bounds.w) := by
      rw [Nat.mul_comm i.bounds.w, ← Nat.mul_assoc, ← Nat.add_mul]
      congr 1
      omega
    split
    · rename_i h
      rw [h] at e1
      omega
    · have : i.bounds.h % 2 = 0 := by omega
      rw [this] at e1
      omega
  have := Meets.mul (bottomStart i.bounds (i.bounds.h / 2 * i.bounds.w)) i.bounds.w (i.bounds.h / 2) (i.bounds.area + 1)
    (by rw [f.area, Nat.mul_comm i.bounds.w]; omega)
  rwa [← e] at this

theorem AllCells.horizontalDirection {i : Image} : Ends (horizontalDirection i) := by
  unfold Ppocr.horizontalDirection
  finishes

theorem AllCells.horizontalGravity {i : Image} (f : AllCells i) : Ends (horizontalGravity i) := by
  unfold Ppocr.horizontalGravity
  refine Ends.bind_ok (by infer_instance) fun ep h => ?_
  rw [f.half h]
  have h1 := fun x y => boxGravityLoop_ends (data := i.data) (isTop := true) x y (AllCells.upper (i := i))
  have h2 := fun x y => boxGravityLoop_ends (data := i.data) (isTop := false) x y f.lower
  refine Ends.bind' (h1 _ _) fun _ => Ends.bind' (h2 _ _) fun _ => by infer_instance

theorem AllCells.diagDirection {i : Image} (f : AllCells i) : Ends (diagDirection i) := by
  unfold Ppocr.diagDirection
  refine Ends.bind_ok (by infer_instance) fun ep h => ?_
  rw [f.half h]
  exact Ends.bind' (diagDirLoop_ends _ _ AllCells.upper) fun _ => Ends.bind' (diagDirLoop_ends _ _ f.lower) fun _ => by infer_instance

theorem AllCells.diagGravity {i : Image} (f : AllCells i) : Ends (diagGravity i) := by
  unfold Ppocr.diagGravity
  refine Ends.bind_ok (by infer_instance) fun ep h => ?_
  rw [f.half h]
  exact Ends.bind' (diagGravLoop_ends _ _ _ AllCells.upper) fun _ => Ends.bind' (diagGravLoop_ends _ _ _ f.lower) fun _ => by
    infer_instance

theorem AllCells.diagDirArea {i : Image} (f : AllCells i) : Ends (diagDirArea i) := by
  unfold Ppocr.diagDirArea
  refine Ends.bind_ok (by infer_instance) fun ep h => ?_
  rw [f.half h]
  exact Ends.bind' (diagDirAreaLoop_ends _ _ AllCells.upper) fun _ => by infer_instance

theorem AllCells.diagGravArea {i : Image} (f : AllCells i) : Ends (diagGravArea i) := by
  unfold Ppocr.diagGravArea
  refine Ends.bind_ok (by infer_instance) fun ep h => ?_
  rw [f.half h]
  exact Ends.bind' (diagGravAreaLoop_ends _ _ AllCells.upper) fun _ => by infer_instance

theorem AllCells.hbar {i : Image} (f : AllCells i) : Ends (hbarLoad i) := by
  unfold hbarLoad
  have := Meets.mul 0 i.bounds.w i.bounds.h (i.bounds.area + 1) (by rw [f.area, Nat.mul_comm]; omega)
  rw [Nat.zero_add, Nat.mul_comm, ← f.area] at this
  exact hbarLoop_ends _ _ this

instance (w area h3 w3 yp : Int) : Ends (dzSpan w area h3 w3 yp) := by
  unfold dzSpan
  finishes

instance (data : List Pixel) (d : Nat) (xs xe : Int) : Ends (dzCount data d xs xe) := by
  unfold dzCount
  finishes

instance dzLoopEnds (i : Image) (w area h3 w3 : Int) : ∀ n yp d res ar, Ends (dzLoop i w area h3 w3 n yp d res ar)
  | 0, _, _, _, _ => by unfold dzLoop; infer_instance
  | n + 1, yp, d, res, ar => by
    have := dzLoopEnds i w area h3 w3 n
    unfold dzLoop
    finishes

instance (i : Image) : Ends (dzdensityLoad i) := by
  unfold dzdensityLoad
  finishes

instance (i : Image) : Ends (proportionalityLoad i) := by
  unfold proportionalityLoad
  finishes

instance (i : Image) : Ends (densityLoad i) := by
  unfold densityLoad
  finishes

/-! ### Alternations -/

instance (data : List Pixel) (p : Nat) : Ends (normalPixel data p) := by
  unfold normalPixel
  finishes

theorem anyPixelLoop_ends {data : List Pixel} {step e : Nat} : ∀ {fuel p : Nat}, Meets p e step fuel →
    Ends (anyPixelLoop data step e fuel p)
  | 0, _, h => h.pos.elim
  | fuel + 1, p, h => by
    unfold anyPixelLoop
    split
    · infer_instance
    · rename_i ne
      have := anyPixelLoop_ends (data := data) (h.next ne)
      finishes

theorem skipSame_ends {get : Nat → Res Bool} [∀ p, Ends (get p)] {last : Nat} {x : Bool} : ∀ {fuel it : Nat}, it ≤ last →
    last - it < fuel → Ends (skipSame get last x fuel it) ∧ ∀ r, skipSame get last x fuel it = .ok r →
      it ≤ r ∧ r ≤ last ∧ (it < last → get it = .ok x → it < r)
  | 0, _, _, h => by omega
  | fuel + 1, it, h1, h2 => by
    unfold skipSame
    split
    · refine ⟨by infer_instance, fun r e => ?_⟩
      cases e
      omega
    · rename_i ne
      have ih := skipSame_ends (get := get) (last := last) (x := x) (fuel := fuel) (it := it + 1) (by omega) (by omega)
      refine ⟨?_, fun r e => ?_⟩
      · have := ih.1
        finishes
      · obtain ⟨b, eb, e⟩ := Res.bind_eq_ok.1 e
        split at e
        · have := ih.2 r e
          omega
        · rename_i nb
          cases e
          refine ⟨Nat.le_refl _, h1, fun _ hx => ?_⟩
          rw [eb] at hx
          cases hx
          exact absurd rfl nb

theorem altLoop_ends {get : Nat → Res Bool} [∀ p, Ends (get p)] {last : Nat} : ∀ {fuel it : Nat} (c : Nat), it ≤ last →
    last - it < fuel → Ends (altLoop get last fuel it c)
  | 0, _, _, _, h => by omega
  | fuel + 1, it, c, h1, h2 => by
    unfold altLoop
    refine Ends.bind_ok (by infer_instance) fun x hx => ?_
    obtain ⟨s1, s2⟩ := skipSame_ends (get := get) (last := last) (x := x) (fuel := last - it + 1) h1 (by omega)
    refine Ends.bind_ok s1 fun r hr => ?_
    obtain ⟨r1, r2, r3⟩ := s2 r hr
    split
    · infer_instance
    · rename_i ne
      have := r3 (by omega) hx
      exact altLoop_ends _ r2 (by omega)

theorem makeAlternations_ends (i : Image) (y w : Nat) (get : Nat → Res Bool) [∀ p, Ends (get p)] :
    Ends (makeAlternations i y w get) := by
  unfold makeAlternations
  have := altLoop_ends (get := get) (last := i.toSizeT 0 y + w) (fuel := w + 1) (it := i.toSizeT 0 y) 1 (by omega) (by omega)
  finishes

instance (i : Image) (y : Nat) : Ends (altRow i y) := makeAlternations_ends _ _ _ _

theorem AllCells.altRows {i : Image} (f : AllCells i) (y : Nat) : Ends (altRows i y (i.bounds.h / 3)) := by
  unfold Ppocr.altRows
  have h1 : i.bounds.h / 3 * i.bounds.w ≤ i.bounds.h * i.bounds.w := Nat.mul_le_mul_right _ (Nat.div_le_self _ _)
  have h2 := f.small
  rw [Nat.mul_comm] at h2
  have : ∀ p, Ends (anyPixel i.data (i.bounds.h / 3) i.bounds.w p) := by
    intro p
    unfold anyPixel umul
    rw [Nat.mod_eq_of_lt (by omega)]
    exact anyPixelLoop_ends ⟨i.bounds.h / 3, rfl, .inl (by omega)⟩
  exact makeAlternations_ends _ _ _ _

theorem AllCells.alternations {i r : Image} (f : AllCells i) (g : AllCells r) : Ends (alternationsLoad i r) := by
  have h1 := f.altRows
  have h2 := g.altRows
  have h3 : Ends (altFirst i) := by
    unfold altFirst
    finishes
  unfold alternationsLoad
  dsimp only
  refine Ends.bind' h3 fun _ => Ends.bind' (by infer_instance) fun _ => Ends.bind' (h1 _) fun _ => Ends.bind' (h1 _) fun _ =>
    Ends.bind' (by infer_instance) fun _ => Ends.bind' (h2 _) fun _ => Ends.bind' (h2 _) fun _ => by infer_instance

/-! ### Zones: the labels still to give and the cells on the stack become less -/

/-- The work left to a flood fill. -/
def Fill.left (s : Fill) : Nat := s.mirror.count 0 + s.stack.length

theorem pushWhen_left {c : Bool} {data : List Pixel} {z cap q : Nat} {s t : Fill} (hz : z ≠ 0)
    (h : pushWhen c data z cap q s = .ok t) : t.left ≤ s.left ∧ t.mirror.length = s.mirror.length := by
  unfold pushWhen at h
  split at h
  · unfold pushIf at h
    obtain ⟨m, hm, h⟩ := Res.bind_eq_ok.1 h
    split at h
    · cases h
      exact ⟨Nat.le_refl _, rfl⟩
    · rename_i m0
      obtain ⟨v, _, h⟩ := Res.bind_eq_ok.1 h
      split at h
      · cases h
        exact ⟨Nat.le_refl _, rfl⟩
      · split at h
        · cases h
          unfold rd at hm
          split at hm
          · rename_i a ha
            cases hm
            obtain ⟨hq, ea⟩ := List.getElem?_eq_some_iff.1 ha
            have m1 : s.mirror[q] = 0 := by rw [ea]; exact Decidable.not_not.1 m0
            have hp : 0 < s.mirror.count 0 := List.count_pos_iff.2 (m1 ▸ List.getElem_mem hq)
            refine ⟨?_, by simp⟩
            unfold Fill.left
            simp only [List.count_set hq, m1, List.length_cons]
            have : (z == 0) = false := by simpa using hz
            simp only [this, beq_self_eq_true, if_true]
            simp
            omega
          · cases hm
        · cases h
  · cases h
    exact ⟨Nat.le_refl _, rfl⟩

instance (data : List Pixel) (z cap q : Nat) (s : Fill) : Ends (pushIf data z cap q s) := by
  unfold pushIf
  finishes

instance (c : Bool) (data : List Pixel) (z cap q : Nat) (s : Fill) : Ends (pushWhen c data z cap q s) := by
  unfold pushWhen
  finishes

theorem fillStep_left {i : Image} {z cap idx : Nat} {s t : Fill} (hz : z ≠ 0) (h : fillStep i z cap idx s = .ok t) :
    t.left ≤ s.left ∧ t.mirror.length = s.mirror.length := by
  unfold fillStep at h
  dsimp only at h
  split at h
  · cases h
  · obtain ⟨a, h1, h⟩ := Res.bind_eq_ok.1 h
    obtain ⟨b, h2, h⟩ := Res.bind_eq_ok.1 h
    obtain ⟨c, h3, h⟩ := Res.bind_eq_ok.1 h
    have h1 := pushWhen_left hz h1
    have h2 := pushWhen_left hz h2
    have h3 := pushWhen_left hz h3
    have h4 := pushWhen_left hz h
    omega

instance (i : Image) (z cap idx : Nat) (s : Fill) : Ends (fillStep i z cap idx s) := by
  unfold fillStep
  finishes

theorem fillLoop_ends {i : Image} {z cap : Nat} (hz : z ≠ 0) : ∀ {fuel : Nat} (idx : Nat) (s : Fill), s.left < fuel →
    Ends (fillLoop i z cap fuel idx s) ∧ ∀ m, fillLoop i z cap fuel idx s = .ok m → m.length = s.mirror.length
  | 0, _, _, h => by omega
  | fuel + 1, idx, s, h => by
    unfold fillLoop
    refine ⟨Ends.bind_ok (by infer_instance) fun t ht => ?_, fun m e => ?_⟩
    · have := fillStep_left hz ht
      split
      · infer_instance
      · rename_i q rest hs
        refine (fillLoop_ends hz q ⟨t.mirror, rest⟩ ?_).1
        unfold Fill.left at this h ⊢
        rw [hs, List.length_cons] at this
        dsimp only
        omega
    · obtain ⟨t, ht, e⟩ := Res.bind_eq_ok.1 e
      have := fillStep_left hz ht
      split at e
      · cases e
        exact this.2
      · rename_i q rest hs
        rw [(fillLoop_ends hz q ⟨t.mirror, rest⟩ (by
          unfold Fill.left at this h ⊢
          rw [hs, List.length_cons] at this
          dsimp only
          omega)).2 m e]
        exact this.2

theorem labelLoop_ends {i : Image} (cap : Nat) : ∀ (n p : Nat) (m : List Nat) (z : Nat), p + n < W32 → n = 0 ∨ 1 ≤ z ∧ z ≤ p + 1 →
    m.length ≤ i.bounds.area → Ends (labelLoop i cap n p m z)
  | 0, _, _, _, _, _, _ => by unfold labelLoop; infer_instance
  | n + 1, p, m, z, h, hz, hm => by
    have nx : n = 0 ∨ 1 ≤ uadd z 1 ∧ uadd z 1 ≤ p + 1 + 1 := by
      by_cases hn : n = 0
      · exact .inl hn
      · have : uadd z 1 = z + 1 := Nat.mod_eq_of_lt (by omega)
        omega
    have same : n = 0 ∨ 1 ≤ z ∧ z ≤ p + 1 + 1 := by omega
    have r1 := labelLoop_ends (i := i) cap n (p + 1) m z (by omega) same hm
    unfold labelLoop
    refine Ends.bind' (by infer_instance) fun l => ?_
    split
    · exact r1
    · refine Ends.bind' (by infer_instance) fun v => ?_
      split
      · exact r1
      · have hl : (⟨m.set p z, []⟩ : Fill).left < i.bounds.area + 1 := by
          have := List.count_le_length (a := 0) (l := m.set p z)
          simp only [Fill.left, List.length_nil]
          rw [List.length_set] at this
          omega
        have hf := fillLoop_ends (i := i) (z := z) (cap := cap) (by omega) p ⟨m.set p z, []⟩ hl
        refine Ends.bind_ok hf.1 fun m' e => labelLoop_ends cap n (p + 1) m' _ (by omega) nx ?_
        rw [hf.2 m' e]
        simpa using hm

instance (l : List Nat) (k : Nat) : Ends (bump l k) := by
  unfold bump
  finishes

instance (i : Image) (m l : List Nat) (x y : Nat) : Ends (insertZone i m l x y) := by
  unfold insertZone
  finishes

instance borderRowsEnds (i : Image) (m : List Nat) : ∀ n x t b, Ends (borderRows i m n x t b)
  | 0, _, _, _ => by unfold borderRows; infer_instance
  | n + 1, x, t, b => by
    have := borderRowsEnds i m n (x + 1)
    unfold borderRows
    finishes

instance borderColsEnds (i : Image) (m : List Nat) : ∀ n x t b, Ends (borderCols i m n x t b)
  | 0, _, _, _ => by unfold borderCols; infer_instance
  | n + 1, x, t, b => by
    have := borderColsEnds i m n (x + 1)
    unfold borderCols
    finishes

theorem AllCells.countZone {i : Image} (f : AllCells i) : Ends (countZone i) := by
  have : Ends (labelZones i) := by
    unfold labelZones
    dsimp only
    refine Ends.bind' (labelLoop_ends _ _ _ _ _ ?_ ?_ ?_) fun _ => by infer_instance
    · rw [f.area, Nat.zero_add]
      exact f.small
    · omega
    · rw [List.length_replicate]
      omega
  unfold Ppocr.countZone
  finishes

instance (i : Image) (x y : Nat) : Ends (i.get x y) := by
  unfold Image.get
  finishes

/-! ### All features -/

theorem compute_ends {V : Type} {f : Image → Res V} {img : Image} (c : Cache V) (h : Ends (f img)) : Ends (c.compute f img) := by
  unfold Cache.compute
  finishes

theorem AllCells.top {i : Image} (f : AllCells i) (c : Ctxs) (t : TopFn) (p : Policy) (k : TopBottom → Res Nat) [∀ t, Ends (k t)] :
    Ends (c.top t p i k) := by
  have h : Ends (t.compute i) := by
    cases t
    · exact AllCells.horizontalDirection
    · exact f.horizontalGravity
    · exact f.diagDirection
    · exact f.diagGravity
  unfold Ctxs.top
  refine Ends.bind' (compute_ends _ h) fun r => ?_
  finishes

theorem AllCells.zone {i : Image} (f : AllCells i) (c : Ctxs) (p : Policy) (k : ZoneInfo → Res (List Nat)) [∀ t, Ends (k t)] :
    Ends (c.zone p i k) := by
  unfold Ctxs.zone
  refine Ends.bind' (compute_ends _ f.countZone) fun r => ?_
  finishes

theorem AllCells.top2 {i : Image} (f : AllCells i) (c : Ctxs) (t : TopFn) (p : Policy) (b : Bool) (k : TopBottom → Res Nat)
    [∀ t, Ends (k t)] : Ends (c.top2 t p i b k) := by
  unfold Ctxs.top2
  have := f.top c t p k
  finishes

theorem AllCells.loadIn {i r : Image} (f : AllCells i) (g : AllCells r) (s : Feat) (p : Policy) (c : Ctxs) : Ends (s.loadIn p i r c) := by
  cases s <;> unfold Feat.loadIn <;> dsimp only
  case hdirection => exact f.top _ _ _ _
  case hgravity => exact f.top _ _ _ _
  case dvdirection => exact f.top _ _ _ _
  case dvgravity => exact f.top _ _ _ _
  case hdirection2 => exact f.top2 _ _ _ _ _
  case hgravity2 => exact f.top2 _ _ _ _ _
  case dvdirection2 => exact Ends.bind' f.diagDirArea fun _ => f.top2 _ _ _ _ _
  case dvgravity2 => exact Ends.bind' f.diagGravArea fun _ => f.top2 _ _ _ _ _
  case dzdensity => finishes
  case proportionality => finishes
  case density => finishes
  case hbar => exact Ends.bind' f.hbar fun _ => by infer_instance
  case alternations => exact Ends.bind' (f.alternations g) fun _ => by infer_instance
  case zone =>
    have : ∀ t, Ends (zoneOf i t) := by
      intro t
      unfold zoneOf
      finishes
    exact f.zone _ _ _
  case propZone =>
    have : ∀ t, Ends (propZoneOf t) := by
      intro t
      unfold propZoneOf
      finishes
    exact f.zone _ _ _

theorem AllCells.stratLoad {i r : Image} (f : AllCells i) (g : AllCells r) (s : Feat × Policy) (c : Ctxs) : Ends (stratLoad s i r c) := by
  unfold Ppocr.stratLoad
  split
  · exact f.loadIn g _ _ _
  · exact g.loadIn f _ _ _

theorem AllCells.tables {i r : Image} (f : AllCells i) (g : AllCells r) : ∀ (ts : List Table) (c : Ctxs), Ends (loadTables i r ts c)
  | [], _ => by unfold loadTables; infer_instance
  | t :: ts, c => by
    unfold loadTables
    have h := f.stratLoad g t.strat c
    have ih := f.tables g ts
    refine Ends.bind' h fun v => ?_
    finishes

theorem rotCol_ends {src : List Pixel} {w e : Nat} : ∀ {fuel d : Nat} (o : Out Pixel), Meets d e w fuel →
    Ends (rotCol src w e fuel d o)
  | 0, _, _, h => h.pos.elim
  | fuel + 1, d, o, h => by
    unfold rotCol
    split
    · infer_instance
    · rename_i ne
      exact Ends.bind' (by infer_instance) fun _ => Ends.bind' (by infer_instance) fun _ => rotCol_ends _ (h.next ne)

theorem AllCells.rotLoop {i : Image} (f : AllCells i) : ∀ (x : Nat) (o : Out Pixel), Ends (rotLoop i x o)
  | 0, _ => by unfold Ppocr.rotLoop; infer_instance
  | x + 1, o => by
    unfold Ppocr.rotLoop
    have := Meets.mul x i.bounds.w i.bounds.h (i.bounds.area + 1) (by rw [f.area, Nat.mul_comm]; omega)
    rw [Nat.mul_comm, ← f.area] at this
    exact Ends.bind' (rotCol_ends _ this) fun _ => f.rotLoop x _

theorem rotCol_cap {src : List Pixel} {w e : Nat} : ∀ {fuel d : Nat} {o q : Out Pixel}, rotCol src w e fuel d o = .ok q → q.cap = o.cap
  | 0, _, _, _, h => by cases h
  | fuel + 1, d, o, q, h => by
    unfold rotCol at h
    split at h
    · cases h
      rfl
    · obtain ⟨_, _, h⟩ := Res.bind_eq_ok.1 h
      obtain ⟨o', h1, h⟩ := Res.bind_eq_ok.1 h
      rw [rotCol_cap h]
      unfold Out.push at h1
      split at h1
      · cases h1
        rfl
      · cases h1

theorem rotLoop_cap {i : Image} : ∀ {x : Nat} {o q : Out Pixel}, rotLoop i x o = .ok q → q.cap = o.cap
  | 0, _, _, h => by cases h; rfl
  | x + 1, o, q, h => by
    unfold rotLoop at h
    obtain ⟨o', h1, h⟩ := Res.bind_eq_ok.1 h
    rw [rotLoop_cap h, rotCol_cap h1]

theorem AllCells.rotate {i r : Image} (f : AllCells i) (hr : i.rotate90 = .ok r) : AllCells r := by
  unfold Image.rotate90 at hr
  obtain ⟨o, h1, h2⟩ := Res.bind_eq_ok.1 hr
  unfold Out.toImage at h2
  split at h2
  · rename_i hl
    cases h2
    have hc := rotLoop_cap h1
    dsimp only at hc
    refine ⟨?_, ?_⟩
    · dsimp only
      rw [hl, hc, f.area, Nat.mul_comm]
    · dsimp only
      rw [Nat.mul_comm]
      exact f.small
  · cases h2

theorem AllCells.load {i : Image} (f : AllCells i) (d : Datas) : Ends (d.load i) := by
  unfold Datas.load
  refine Ends.bind_ok ?_ fun r hr => ?_
  · unfold Image.rotate90
    exact Ends.bind' (f.rotLoop _ _) fun _ => by infer_instance
  · refine Ends.bind' (f.tables (f.rotate hr) _ _) fun p => ?_
    finishes

end Ppocr

import Verif.Model.Glyphs
import Verif.Spec.Glyphs
import Verif.Proofs.GlyphIO

/-! # The words of a glyph file in memory -/

namespace Ppocr
open Spec

/-! ## Maps -/

/-- A map of `n` strings to the numbers below `n`. -/
structure MapOk (m : StrMap) : Prop where
  sorted : Increasing (m.map Prod.fst)
  vals : (m.map Prod.snd).Perm (List.range m.length)

theorem mapFind_mem : ∀ {m : StrMap} {w : List Nat} {i : Nat}, mapFind m w = some i → (w, i) ∈ m
  | (k, v) :: m, w, i, h => by
    unfold mapFind at h
    split at h
    · rename_i e
      injection h with h
      subst h; subst e
      simp
    · simp [mapFind_mem h]

theorem mapFind_none : ∀ {m : StrMap} {w : List Nat}, mapFind m w = none → ∀ p ∈ m, p.1 ≠ w
  | [], _, _ => by simp
  | (k, v) :: m, w, h => by
    unfold mapFind at h
    split at h
    · simp at h
    · rename_i e
      intro p hp
      rcases List.mem_cons.1 hp with rfl | hp
      · exact e
      · exact mapFind_none h p hp

theorem mapFind_of_mem : ∀ {m : StrMap} {w : List Nat} {i : Nat}, (m.map Prod.fst).Nodup → (w, i) ∈ m →
    mapFind m w = some i
  | (k, v) :: m, w, i, hn, h => by
    unfold mapFind
    rw [List.map_cons, List.nodup_cons] at hn
    rcases List.mem_cons.1 h with h | h
    · injection h with h1 h2
      rw [if_pos h1.symm, h2]
    · rw [if_neg]
      · exact mapFind_of_mem hn.2 h
      · rintro rfl
        exact hn.1 (List.mem_map.2 ⟨(k, i), h, rfl⟩)

theorem mapInsert_perm : ∀ (m : StrMap) (w : List Nat) (n : Nat), (mapInsert m w n).Perm ((w, n) :: m)
  | [], w, n => List.Perm.refl _
  | (k, v) :: m, w, n => by
    unfold mapInsert
    split
    · exact List.Perm.refl _
    · exact ((mapInsert_perm m w n).cons _).trans (List.Perm.swap _ _ _)

theorem mapInsert_sorted : ∀ {m : StrMap} {w : List Nat} {n : Nat}, Increasing (m.map Prod.fst) →
    (∀ p ∈ m, p.1 ≠ w) → Increasing ((mapInsert m w n).map Prod.fst)
  | [], w, n, _, _ => by simp [mapInsert]
  | (k, v) :: m, w, n, h, hne => by
    rw [List.map_cons] at h
    have h' := List.pairwise_cons.1 h
    unfold mapInsert
    split
    · rename_i hlt
      rw [List.map_cons]
      refine List.pairwise_cons.2 ⟨?_, h⟩
      intro x hx
      rw [List.map_cons] at hx
      rcases List.mem_cons.1 hx with rfl | hx
      · exact hlt
      · exact wordLt_trans _ _ _ hlt (h'.1 x hx)
    · rename_i hlt
      rw [List.map_cons]
      refine List.pairwise_cons.2 ⟨?_, mapInsert_sorted h'.2 fun p hp => hne p (by simp [hp])⟩
      intro x hx
      rw [((mapInsert_perm m w n).map Prod.fst).mem_iff, List.map_cons] at hx
      rcases List.mem_cons.1 hx with e | hx
      · replace e : x = w := e
        rw [e]
        cases hh : wordLt k w with
        | true => rfl
        | false => exact absurd (wordLt_total k w hh (by simpa using hlt)) (hne (k, v) (by simp))
      · exact h'.1 x hx

theorem MapOk.insert {m : StrMap} (h : MapOk m) {w : List Nat} (hw : ∀ p ∈ m, p.1 ≠ w) :
    MapOk (mapInsert m w m.length) := by
  have hp := mapInsert_perm m w m.length
  refine ⟨mapInsert_sorted h.sorted hw, ?_⟩
  rw [hp.length_eq, List.length_cons, List.range_succ]
  refine (hp.map Prod.snd).trans ?_
  rw [List.map_cons]
  exact (h.vals.cons _).trans (List.perm_append_comm (l₁ := [m.length]))

/-- A later map: the numbers given before are kept. -/
def MapExt (m m' : StrMap) : Prop := ∀ w i, mapFind m w = some i → mapFind m' w = some i

theorem MapExt.trans {a b c : StrMap} (h1 : MapExt a b) (h2 : MapExt b c) : MapExt a c :=
  fun w i h => h2 w i (h1 w i h)

/-- The keys of the later map are those of the first and the words given. -/
def MapKeys (m m' : StrMap) (ws : List (List Nat)) : Prop :=
  ∀ w, w ∈ m'.map Prod.fst ↔ w ∈ m.map Prod.fst ∨ w ∈ ws

theorem mapFind_isSome {m : StrMap} {w : List Nat} : (mapFind m w).isSome ↔ w ∈ m.map Prod.fst := by
  cases h : mapFind m w with
  | none =>
    simp only [Option.isSome_none, Bool.false_eq_true, List.mem_map, false_iff]
    rintro ⟨p, hp, e⟩
    exact mapFind_none h p hp e
  | some i => simpa using ⟨i, mapFind_mem h⟩

theorem intern_ok {m : StrMap} (h : MapOk m) (w : List Nat) (hsz : m.length < W32) :
    MapOk (intern m w).2 ∧ MapExt m (intern m w).2 ∧ MapKeys m (intern m w).2 [w] ∧
      mapFind (intern m w).2 w = some (intern m w).1 ∧ (intern m w).2.length ≤ m.length + 1 := by
  unfold intern
  cases e : mapFind m w with
  | some i =>
    refine ⟨h, fun _ _ h => h, ?_, e, by simp⟩
    intro v
    simp only [List.mem_singleton]
    constructor
    · exact .inl
    · rintro (h | rfl)
      · exact h
      · rw [← mapFind_isSome, e]
        rfl
  | none =>
    have hne := mapFind_none e
    have hmod : m.length % W32 = m.length := Nat.mod_eq_of_lt hsz
    simp only [hmod]
    have hok := h.insert hne
    have hp := mapInsert_perm m w m.length
    refine ⟨hok, ?_, ?_, ?_, by rw [hp.length_eq]; simp⟩
    · intro v i hv
      exact mapFind_of_mem hok.sorted.nodup (hp.mem_iff.2 (List.mem_cons_of_mem _ (mapFind_mem hv)))
    · intro v
      rw [(hp.map Prod.fst).mem_iff, List.map_cons, List.mem_cons, List.mem_singleton]
      exact or_comm
    · exact mapFind_of_mem hok.sorted.nodup (hp.mem_iff.2 (by simp))

/-! ## Writing -/

theorem wr_ok {α : Type} {l : List α} {i : Nat} {x : α} (h : i < l.length) : wr l i x = .ok (l.set i x) := if_pos h

theorem wr_append {α : Type} (a c : List α) (o x : α) : wr (a ++ o :: c) a.length x = .ok (a ++ x :: c) := by
  rw [wr_ok (by simp)]
  simp

theorem wrAll_append : ∀ (l : List Nat) (a old c : List (Option Nat)), old.length = l.length →
    wrAll (a ++ (old ++ c)) a.length l = .ok (a ++ (l.map some ++ c))
  | [], a, [], c, _ => rfl
  | [], _, _ :: _, _, h => by simp at h
  | _ :: _, _, [], _, h => by simp at h
  | x :: l, a, o :: old, c, h => by
    unfold wrAll
    rw [List.cons_append, wr_append, Res.ok_bind]
    have := wrAll_append l (a ++ [some x]) old c (by simpa using h)
    simp only [List.append_assoc, List.cons_append, List.nil_append, List.length_append, List.length_cons,
      List.length_nil] at this
    rw [this]
    simp

/-- The number of bytes behind a word up to the next `unsigned`. -/
def padLen (w : List Nat) : Nat := 4 * wordUnits w.length - w.length

/-- The layout of the buffer. -/
inductive Blocks : List (List Nat) → List (Option Nat) → Prop
  | nil : Blocks [] []
  | cons (w : List Nat) (ws : List (List Nat)) (pad rest : List (Option Nat)) :
    pad.length = padLen w → (w.length % 4 ≠ 0 → pad.head? = some (some 0)) → Blocks ws rest →
    Blocks (w :: ws) ((le4 w.length).map some ++ (w.map some ++ (pad ++ rest)))

theorem room_eq (w : List Nat) : room w = wordUnits w.length + 1 := by
  unfold room wordUnits
  omega

theorem room_bytes (w : List Nat) : 4 * room w = 4 + w.length + padLen w := by
  rw [room_eq]
  unfold padLen wordUnits
  omega

/-- Filling the buffer: it succeeds unless the size of the last word is a multiple of 4. -/
theorem fillWords_ok : ∀ (m : StrMap) (done rest : List (Option Nat)) (p : Nat), done.length = 4 * p →
    rest.length = 4 * ((m.map Prod.fst).map room).sum →
    (∀ w, (m.map Prod.fst).getLast? = some w → w.length % 4 ≠ 0) →
    ∃ b, fillWords m (done ++ rest) p = .ok (done ++ b) ∧ Blocks (m.map Prod.fst) b
  | [], done, rest, p, _, hr, _ => by
    have : rest = [] := List.length_eq_zero_iff.1 (by simpa using hr)
    subst this
    exact ⟨[], rfl, .nil⟩
  | (w, i) :: m, done, rest, p, hd, hr, hl => by
    have hrm := room_bytes w
    simp only [List.map_cons, List.sum_cons] at hr
    -- the parts of `rest`
    obtain ⟨a, b, e1, ha⟩ : ∃ a b : List (Option Nat), rest = a ++ b ∧ a.length = 4 :=
      ⟨rest.take 4, rest.drop 4, (List.take_append_drop _ _).symm, by rw [List.length_take]; omega⟩
    have hb : b.length = w.length + padLen w + 4 * ((m.map Prod.fst).map room).sum := by
      rw [e1, List.length_append] at hr; omega
    obtain ⟨c, d, e2, hc⟩ : ∃ c d : List (Option Nat), b = c ++ d ∧ c.length = w.length :=
      ⟨b.take w.length, b.drop w.length, (List.take_append_drop _ _).symm, by rw [List.length_take]; omega⟩
    have hdl : d.length = padLen w + 4 * ((m.map Prod.fst).map room).sum := by
      rw [e2, List.length_append] at hb; omega
    have hd0 : 0 < d.length := by
      by_cases h4 : w.length % 4 = 0
      · cases m with
        | nil => exact absurd h4 (hl w (by simp))
        | cons q m =>
          have := room_bytes q.1
          simp only [List.map_cons, List.sum_cons] at hdl
          omega
      · unfold padLen wordUnits at hdl
        omega
    obtain ⟨x, d', e3⟩ : ∃ x d', d = x :: d' := by
      cases d with
      | nil => simp at hd0
      | cons x d' => exact ⟨x, d', rfl⟩
    obtain ⟨pad, rst, e4, hpl⟩ : ∃ pad rst : List (Option Nat), some 0 :: d' = pad ++ rst ∧ pad.length = padLen w :=
      ⟨(some 0 :: d').take (padLen w), (some 0 :: d').drop (padLen w), (List.take_append_drop _ _).symm, by
        rw [List.length_take]
        rw [e3] at hdl
        simp only [List.length_cons] at hdl ⊢
        omega⟩
    have hrl : rst.length = 4 * ((m.map Prod.fst).map room).sum := by
      have := congrArg List.length e4
      rw [e3] at hdl
      simp only [List.length_cons, List.length_append] at this hdl
      omega
    obtain ⟨b', hfill, hblk⟩ := fillWords_ok m
      (done ++ ((le4 w.length).map some ++ (w.map some ++ pad))) rst (p + 1 + wordUnits w.length)
      (by
        have hr4 := room_eq w
        simp only [List.length_append, List.length_map, hpl, hd]
        have : (le4 w.length).length = 4 := rfl
        omega)
      hrl (by
        intro v hv
        apply hl v
        rw [List.map_cons]
        cases hm : m.map Prod.fst with
        | nil => rw [hm] at hv; simp at hv
        | cons q t => rw [hm] at hv; rw [List.getLast?_cons_cons]; exact hv)
    refine ⟨(le4 w.length).map some ++ (w.map some ++ (pad ++ b')), ?_, ?_⟩
    · unfold fillWords
      rw [e1, e2, ← hd, wrAll_append _ _ _ _ (by rw [ha]; rfl), Res.ok_bind]
      have e5 : 4 * (p + 1) = (done ++ (le4 w.length).map some).length := by
        simp only [List.length_append, List.length_map, hd]
        have : (le4 w.length).length = 4 := rfl
        omega
      rw [e5, ← List.append_assoc done, wrAll_append _ _ _ _ hc, Res.ok_bind, e3]
      have e6 : (done ++ (le4 w.length).map some).length + w.length =
          ((done ++ (le4 w.length).map some) ++ w.map some).length := by simp [Nat.add_assoc]
      rw [e6, ← List.append_assoc (done ++ (le4 w.length).map some), wr_append, Res.ok_bind, e4]
      simp only [List.append_assoc] at hfill ⊢
      exact hfill
    · refine .cons w _ pad b' hpl ?_ hblk
      intro h4
      have hpos : 0 < padLen w := by unfold padLen wordUnits; omega
      cases pad with
      | nil => simp at hpl; omega
      | cons y pad =>
        rw [List.cons_append, List.cons.injEq] at e4
        rw [← e4.1]
        rfl

/-- The last write is behind the buffer when the size of the last word is a multiple of 4. -/
theorem fillWords_ub : ∀ (m : StrMap) (done rest : List (Option Nat)) (p : Nat), done.length = 4 * p →
    rest.length = 4 * ((m.map Prod.fst).map room).sum →
    ∀ w, (m.map Prod.fst).getLast? = some w → w.length % 4 = 0 → fillWords m (done ++ rest) p = .ub
  | [], _, _, _, _, _, _, h, _ => by simp at h
  | (w, i) :: m, done, rest, p, hd, hr, v, hv, h4 => by
    have hrm := room_bytes w
    simp only [List.map_cons, List.sum_cons] at hr
    obtain ⟨a, b, e1, ha⟩ : ∃ a b : List (Option Nat), rest = a ++ b ∧ a.length = 4 :=
      ⟨rest.take 4, rest.drop 4, (List.take_append_drop _ _).symm, by rw [List.length_take]; omega⟩
    have hb : b.length = w.length + padLen w + 4 * ((m.map Prod.fst).map room).sum := by
      rw [e1, List.length_append] at hr; omega
    obtain ⟨c, d, e2, hc⟩ : ∃ c d : List (Option Nat), b = c ++ d ∧ c.length = w.length :=
      ⟨b.take w.length, b.drop w.length, (List.take_append_drop _ _).symm, by rw [List.length_take]; omega⟩
    have hdl : d.length = padLen w + 4 * ((m.map Prod.fst).map room).sum := by
      rw [e2, List.length_append] at hb; omega
    have e5 : 4 * (p + 1) = (done ++ (le4 w.length).map some).length := by
      simp only [List.length_append, List.length_map, hd]
      have : (le4 w.length).length = 4 := rfl
      omega
    have e6 : (done ++ (le4 w.length).map some).length + w.length =
        ((done ++ (le4 w.length).map some) ++ w.map some).length := by simp [Nat.add_assoc]
    unfold fillWords
    rw [e1, e2, ← hd, wrAll_append _ _ _ _ (by rw [ha]; rfl), Res.ok_bind, e5, ← List.append_assoc done,
      wrAll_append _ _ _ _ hc, Res.ok_bind, e6, ← List.append_assoc (done ++ (le4 w.length).map some)]
    cases m with
    | nil =>
      simp only [List.map_cons, List.map_nil, List.getLast?_singleton, Option.some.injEq] at hv
      subst hv
      have : d = [] := by
        apply List.length_eq_zero_iff.1
        rw [hdl]
        simp only [padLen, wordUnits, List.map_nil, List.sum_nil]
        omega
      subst this
      rw [List.append_nil]
      unfold wr
      rw [if_neg (by simp), Res.ub_bind]
    | cons q m =>
      have hq := room_bytes q.1
      simp only [List.map_cons, List.sum_cons] at hdl
      obtain ⟨x, d', e3⟩ : ∃ x d', d = x :: d' := by
        cases d with
        | nil => simp at hdl; omega
        | cons x d' => exact ⟨x, d', rfl⟩
      rw [e3, wr_append, Res.ok_bind]
      obtain ⟨pad, rst, e4, hpl⟩ : ∃ pad rst : List (Option Nat), some 0 :: d' = pad ++ rst ∧
          pad.length = padLen w :=
        ⟨(some 0 :: d').take (padLen w), (some 0 :: d').drop (padLen w), (List.take_append_drop _ _).symm, by
          rw [List.length_take]
          rw [e3] at hdl
          simp only [List.length_cons] at hdl ⊢
          omega⟩
      have hrl : rst.length = 4 * (((q :: m).map Prod.fst).map room).sum := by
        have := congrArg List.length e4
        rw [e3] at hdl
        simp only [List.length_cons, List.length_append, List.map_cons, List.sum_cons] at this hdl ⊢
        omega
      rw [e4, ← List.append_assoc]
      refine fillWords_ub (q :: m) _ rst _ ?_ hrl v ?_ h4
      · have hr4 := room_eq w
        simp only [List.length_append, List.length_map, hpl, hd]
        have : (le4 w.length).length = 4 := rfl
        omega
      · rw [List.map_cons, List.map_cons, List.getLast?_cons_cons] at hv
        rw [List.map_cons]
        exact hv

theorem Blocks.length : ∀ {ws : List (List Nat)} {b : List (Option Nat)}, Blocks ws b →
    b.length = 4 * (ws.map room).sum
  | _, _, .nil => rfl
  | _, _, .cons w ws pad rest hp _ h => by
    have := h.length
    have hr := room_bytes w
    simp only [List.length_append, List.length_map, List.map_cons, List.sum_cons, hp, this]
    have : (le4 w.length).length = 4 := rfl
    omega

/-- What the buffer holds at the place of a word. -/
theorem Blocks.split : ∀ {ws : List (List Nat)} {b : List (Option Nat)}, Blocks ws b → ∀ w ∈ ws,
    ∃ a pad rest, b = a ++ ((le4 w.length).map some ++ (w.map some ++ (pad ++ rest))) ∧
      a.length = 4 * place ws w ∧ pad.length = padLen w ∧ (w.length % 4 ≠ 0 → pad.head? = some (some 0))
  | _, _, .nil, w, hw => by simp at hw
  | _, _, .cons v ws pad rest hp hn h, w, hw => by
    by_cases e : v = w
    · subst e
      exact ⟨[], pad, rest, rfl, by simp [place], hp, hn⟩
    · have hw' : w ∈ ws := by
        rcases List.mem_cons.1 hw with h | h
        · exact absurd h.symm e
        · exact h
      obtain ⟨a, pad', rest', e1, e2, e3, e4⟩ := h.split w hw'
      refine ⟨(le4 v.length).map some ++ (v.map some ++ (pad ++ a)), pad', rest', ?_, ?_, e3, e4⟩
      · rw [e1]
        simp
      · have hr := room_bytes v
        simp only [List.length_append, List.length_map, place, if_neg e, hp, e2]
        have : (le4 v.length).length = 4 := rfl
        omega

theorem le4_get (n k : Nat) (h : k < 4) : (le4 n)[k]? = some (n / 256 ^ k % 256) := by
  rcases k with _ | _ | _ | _ | k
  · simp [le4]
  · simp [le4]
  · simp [le4]
  · simp [le4]
  · omega

theorem Blocks.holds {ws : List (List Nat)} {b : List (Option Nat)} (h : Blocks ws b) {w : List Nat} (hw : w ∈ ws) :
    Holds b (place ws w) w ∧ (w.length % 4 ≠ 0 → Terminated b (place ws w) w) := by
  obtain ⟨a, pad, rest, e, ha, hp, hn⟩ := h.split w hw
  subst e
  have l4 : ((le4 w.length).map some).length = 4 := rfl
  refine ⟨⟨?_, ?_⟩, ?_⟩
  · intro k hk
    rw [← ha, List.getElem?_append_right (by omega), List.getElem?_append_left (by rw [l4]; omega),
      Nat.add_sub_cancel_left, List.getElem?_map, le4_get _ _ hk]
    rfl
  · intro k c hk
    have hkl : k < w.length := by
      rcases Nat.lt_or_ge k w.length with h | h
      · exact h
      · rw [List.getElem?_eq_none h] at hk
        simp at hk
    rw [← ha, List.getElem?_append_right (by omega), List.getElem?_append_right (by rw [l4]; omega),
      List.getElem?_append_left (by simp only [List.length_map] at l4 ⊢; omega), l4,
      show a.length + 4 + k - a.length - 4 = k by omega, List.getElem?_map, hk]
    rfl
  · intro h4
    unfold Terminated
    rw [← ha, List.getElem?_append_right (by omega), List.getElem?_append_right (by rw [l4]; omega),
      List.getElem?_append_right (by simp only [List.length_map] at l4 ⊢; omega), l4, List.length_map,
      show a.length + 4 + w.length - a.length - 4 - w.length = 0 by omega]
    have := hn h4
    cases pad with
    | nil => simp at this
    | cons y pad => simpa using this

theorem rdByte_of {b : List (Option Nat)} {i c : Nat} (h : b[i]? = some (some c)) : rdByte b i = .ok c := by
  unfold rdByte
  rw [rd_eq_ok.2 h]
  rfl

theorem rdBytes_of {b : List (Option Nat)} : ∀ (w : List Nat) (i : Nat),
    (∀ k : Nat, ∀ c : Nat, w[k]? = some c → b[i + k]? = some (some c)) → rdBytes b i w.length = .ok w
  | [], _, _ => rfl
  | c :: w, i, h => by
    have h0 := h 0 c rfl
    rw [Nat.add_zero] at h0
    rw [List.length_cons, rdBytes, rdByte_of h0, Res.ok_bind, rdBytes_of w (i + 1) fun k d hk => by
      have := h (k + 1) d (by simpa using hk)
      rw [show i + 1 + k = i + (k + 1) by omega]
      exact this]
    rfl

theorem le4_sum {n : Nat} (h : n < W32) :
    n / 256 ^ 0 % 256 + 256 * (n / 256 ^ 1 % 256) + 65536 * (n / 256 ^ 2 % 256) +
      16777216 * (n / 256 ^ 3 % 256) = n := by
  simp only [W32] at h
  simp only [Nat.reducePow, Nat.div_one]
  omega

theorem wordSize_of {b : List (Option Nat)} {i : Nat} {w : List Nat} (h : Holds b i w) (hw : w.length < W32) :
    wordSize b i = .ok w.length := by
  have h0 := h.1 0 (by omega)
  rw [Nat.add_zero] at h0
  unfold wordSize
  rw [rdByte_of h0, rdByte_of (h.1 1 (by omega)), rdByte_of (h.1 2 (by omega)), rdByte_of (h.1 3 (by omega))]
  simp only [Res.ok_bind, Res.pure_eq]
  rw [le4_sum hw]

theorem getWord_of {b : List (Option Nat)} {i : Nat} {w : List Nat} (h : Holds b i w) (hw : w.length < W32) :
    getWord b i = .ok w := by
  unfold getWord
  rw [wordSize_of h hw, Res.ok_bind]
  exact rdBytes_of w _ h.2

/-! ## Places -/

theorem place_lt : ∀ {ws : List (List Nat)} {w : List Nat}, w ∈ ws → place ws w < (ws.map room).sum
  | v :: ws, w, h => by
    unfold place
    simp only [List.map_cons, List.sum_cons]
    split
    · unfold room; omega
    · rename_i e
      have := place_lt (ws := ws) (w := w) (by
        rcases List.mem_cons.1 h with h | h
        · exact absurd h.symm e
        · exact h)
      omega

theorem place_inj : ∀ {ws : List (List Nat)} {v w : List Nat}, v ∈ ws → w ∈ ws → place ws v = place ws w → v = w
  | x :: ws, v, w, hv, hw, h => by
    have hr : 0 < room x := by unfold room; omega
    unfold place at h
    by_cases ev : x = v
    · by_cases ew : x = w
      · rw [← ev, ew]
      · rw [if_pos ev, if_neg ew] at h
        omega
    · by_cases ew : x = w
      · rw [if_neg ev, if_pos ew] at h
        omega
      · rw [if_neg ev, if_neg ew] at h
        refine place_inj (ws := ws) ?_ ?_ (by omega)
        · rcases List.mem_cons.1 hv with h | h
          · exact absurd h.symm ev
          · exact h
        · rcases List.mem_cons.1 hw with h | h
          · exact absurd h.symm ew
          · exact h

/-! ## The new numbers of the words -/

theorem reindexLoop_ok : ∀ (m : StrMap) (v : List Nat) (sz : Nat), (∀ p ∈ m, p.2 < v.length) →
    (m.map Prod.snd).Nodup → (m.map Prod.fst).Nodup → sz + ((m.map Prod.fst).map room).sum < W32 →
    ∃ v', reindexLoop m v sz = .ok (v', sz + ((m.map Prod.fst).map room).sum) ∧ v'.length = v.length ∧
      (∀ p ∈ m, v'[p.2]? = some (sz + place (m.map Prod.fst) p.1)) ∧
      ∀ k : Nat, k ∉ m.map Prod.snd → v'[k]? = v[k]?
  | [], v, sz, _, _, _, _ => ⟨v, by simp [reindexLoop], rfl, by simp, by simp⟩
  | (w, i) :: m, v, sz, hl, hn, hk, hsz => by
    simp only [List.map_cons, List.sum_cons, List.nodup_cons] at hsz hn hk
    have hr := room_eq w
    have hi : i < v.length := hl (w, i) (by simp)
    have hmod : (sz + (wordUnits w.length + 1)) % W32 = sz + room w := by
      rw [← hr]
      exact Nat.mod_eq_of_lt (by omega)
    obtain ⟨v', e1, e2, e3, e4⟩ := reindexLoop_ok m (v.set i sz) (sz + room w)
      (fun p hp => by rw [List.length_set]; exact hl p (by simp [hp])) hn.2 hk.2 (by omega)
    refine ⟨v', ?_, by rw [e2, List.length_set], ?_, ?_⟩
    · unfold reindexLoop
      rw [wr_ok hi, Res.ok_bind, hmod, e1]
      simp only [List.map_cons, List.sum_cons, Nat.add_assoc]
    · intro p hp
      rcases List.mem_cons.1 hp with rfl | hp
      · rw [e4 i hn.1, List.getElem?_set_self hi]
        simp [place]
      · rw [e3 p hp]
        have : w ≠ p.1 := fun e => hk.1 (List.mem_map.2 ⟨p, hp, e.symm⟩)
        simp only [List.map_cons, place, if_neg this]
        rw [Nat.add_assoc]
    · intro k hk'
      simp only [List.map_cons, List.mem_cons, not_or] at hk'
      rw [e4 k hk'.2, List.getElem?_set_ne (Ne.symm hk'.1)]

theorem reindexViews_ok {v : List Nat} {f : Nat → Nat} : ∀ (g : List View),
    (∀ x ∈ g, v[x.word]? = some (f x.word)) →
    reindexViews v g = .ok (g.map fun x => ⟨f x.word, x.font⟩)
  | [], _ => rfl
  | x :: g, h => by
    unfold reindexViews
    rw [rd_eq_ok.2 (h x (by simp)), Res.ok_bind, reindexViews_ok g fun y hy => h y (by simp [hy])]
    rfl

theorem reindexAll_ok {v : List Nat} {f : Nat → Nat} : ∀ (gs : List (List View)),
    (∀ g ∈ gs, ∀ x ∈ g, v[x.word]? = some (f x.word)) →
    reindexAll v gs = .ok (gs.map (List.map fun x => ⟨f x.word, x.font⟩))
  | [], _ => rfl
  | g :: gs, h => by
    unfold reindexAll
    rw [reindexViews_ok g (h g (by simp)), Res.ok_bind, reindexAll_ok gs fun y hy => h y (by simp [hy])]
    rfl

end Ppocr

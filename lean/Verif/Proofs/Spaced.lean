import Verif.Props.Spell
import Verif.Props.Text
import Verif.Spec.Program

/-! # The text of letters with one candidate word -/

namespace Ppocr
open Spec Props

/-- A letter with candidates, all of them the same string. -/
def Sure (l : List (List Nat)) : Prop := l ≠ [] ∧ ∀ w ∈ l, w = firstOf l

theorem Sure.first {l : List (List Nat)} (h : Sure l) : firstOf l ∈ l := by
  cases l with
  | nil => exact absurd rfl h.1
  | cons w l => exact List.mem_cons_self

theorem choices_sure : ∀ {L : List (List (List Nat))}, (∀ l ∈ L, Sure l) → ∀ ch ∈ choices L, ch = L.map firstOf
  | [], _, ch, h => by simpa [choices] using h
  | l :: L, hs, ch, h => by
    simp only [choices, List.mem_flatMap, List.mem_map] at h
    obtain ⟨c, hc, ch', hch, rfl⟩ := h
    rw [choices_sure (fun x hx => hs x (List.mem_cons_of_mem _ hx)) ch' hch, (hs l List.mem_cons_self).2 c hc]
    rfl

theorem spellCut_snoc : ∀ (r : List (List Nat)) (c : List Nat), spellCut (r ++ [c]) = r.flatten ++ c.take 1
  | [], c => rfl
  | [d], c => by simp [spellCut]
  | d :: e :: r, c => by
    have := spellCut_snoc (e :: r) c
    rw [List.cons_append, List.cons_append, spellCut, ← List.cons_append, this]
    simp

theorem Spec.Uncut.sub {ws ts us : List (List Nat)} (h : Uncut ws ts) (hi : us <:+: ts) : Uncut ws us :=
  fun r c hr => h r c (hr.trans hi)

theorem uncut_nil (ts : List (List Nat)) : Uncut [] ts := fun _ _ _ => .inr (by simp)

theorem uncut_one {ws ts : List (List Nat)} (h : ∀ c ∈ ts, c.length = 1) : Uncut ws ts :=
  fun _ _ hr => .inl (h _ (hr.subset (by simp)))

theorem runText_sure {ws : List (List Nat)} {L : List (List (List Nat))} (hs : ∀ l ∈ L, Sure l)
    (h1 : Uncut ws (L.map firstOf)) : runText ws L = L.flatMap firstOf := by
  unfold runText
  split
  · rename_i ch hch
    have hm := List.mem_of_find?_eq_some hch
    have hp := List.find?_some hch
    have := choices_sure hs ch hm
    subst this
    rw [List.flatMap_def]
    have hp : spellCut (L.map firstOf) ∈ ws := by simpa using hp
    rcases List.eq_nil_or_concat (L.map firstOf) with h0 | ⟨r, c, h0⟩
    · rw [h0]; rfl
    · rw [List.concat_eq_append] at h0
      rw [h0, spellCut_snoc] at hp ⊢
      rcases h1 r c (by rw [h0]; exact List.infix_refl _) with h2 | h2
      · rw [List.take_of_length_le (by omega)]
        simp
      · exact absurd hp h2
  · rfl

theorem segText_sure {ws : List (List Nat)} {L : List (List (List Nat))} (hs : ∀ l ∈ L, Sure l)
    (h1 : Uncut ws (L.map firstOf)) : segText ws L = L.flatMap firstOf := by
  fun_induction segText ws L with
  | case1 => rfl
  | case2 l ls h ih =>
    rw [ih (fun x hx => hs x (List.mem_cons_of_mem _ hx)) (h1.sub (List.suffix_cons _ _).isInfix), List.flatMap_cons, sepText,
      if_neg (hs l List.mem_cons_self).1]
  | case3 l ls h ih =>
    have hd := (List.dropWhile_sublist (l := l :: ls) (!isSep ·)).subset
    have ht := (List.takeWhile_sublist (l := l :: ls) (!isSep ·)).subset
    rw [ih (fun x hx => hs x (hd hx)) (h1.sub ((List.dropWhile_suffix _).map _).isInfix),
      runText_sure (fun x hx => hs x (ht hx)) (h1.sub ((List.takeWhile_prefix _).map _).isInfix), ← List.flatMap_append,
      List.takeWhile_append_dropWhile]

theorem segments_infix {α : Type} (ls : List α) : ∀ (ends : List Nat) (b : Nat), ∀ s ∈ segments ls b ends, s <:+: ls
  | [], _, s, h => by simp [segments] at h
  | e :: es, b, s, h => by
    simp only [segments, List.mem_cons] at h
    rcases h with rfl | h
    · exact (List.drop_suffix _ _).isInfix.trans (List.take_prefix _ _).isInfix
    · exact segments_infix ls es e s h

theorem segments_sub {α : Type} (ls : List α) : ∀ (ends : List Nat) (b : Nat), ∀ s ∈ segments ls b ends, ∀ x ∈ s, x ∈ ls
  | [], _, s, h, _, _ => by simp [segments] at h
  | e :: es, b, s, h, x, hx => by
    simp only [segments, List.mem_cons] at h
    rcases h with rfl | h
    · exact List.mem_of_mem_take (List.mem_of_mem_drop hx)
    · exact segments_sub ls es e s h x hx

/-- The text of segments of such letters. -/
def joinSure (ls : List (List (List Nat))) (b : Nat) (ends : List Nat) : List Nat :=
  [32].intercalate ((segments ls b ends).map fun s => s.flatMap firstOf)

theorem joinSure_of {ws : List (List Nat)} {ls : List (List (List Nat))} (hs : ∀ l ∈ ls, Sure l)
    (h1 : Uncut ws (ls.map firstOf)) (b : Nat) (ends : List Nat) :
    [32].intercalate ((segments ls b ends).map (segText ws)) = joinSure ls b ends := by
  unfold joinSure
  rw [List.map_congr_left]
  intro s hsm
  exact segText_sure (fun x hx => hs x (segments_sub ls ends b s hsm x hx))
    (h1.sub ((segments_infix ls ends b s hsm).map _))

theorem inter_cons (x y : List Nat) (t : List (List Nat)) :
    [32].intercalate (x :: y :: t) = x ++ [32] ++ [32].intercalate (y :: t) := by
  simp [List.intercalate]

theorem inter_append (x y : List Nat) (t : List (List Nat)) :
    [32].intercalate ((x ++ y) :: t) = x ++ [32].intercalate (y :: t) := by
  cases t with
  | nil => simp [List.intercalate]
  | cons z t => rw [inter_cons, inter_cons]; simp

theorem take_drop_split {α : Type} (ls : List α) {a b e : Nat} (hab : a ≤ b) (hbe : b ≤ e) :
    (ls.take e).drop a = (ls.take b).drop a ++ (ls.take e).drop b := by
  rw [List.drop_take, List.drop_take, List.drop_take, show e - a = (b - a) + (e - b) by omega, List.take_add,
    List.drop_drop, show a + (b - a) = b by omega]

theorem takeWhile_self {α : Type} {p : α → Bool} : ∀ {l : List α}, l.takeWhile p = l ↔ ∀ x ∈ l, p x = true
  | [] => by simp
  | x :: l => by
    by_cases hx : p x = true
    · rw [List.takeWhile_cons_of_pos hx, List.cons.injEq, takeWhile_self]
      simp [hx]
    · rw [List.takeWhile_cons_of_neg hx]
      simp [hx]

theorem joinSure_merge (ls : List (List (List Nat))) {a b e : Nat} (es : List Nat) (hab : a ≤ b) (hbe : b ≤ e) :
    joinSure ls a (e :: es) = ((ls.take b).drop a).flatMap firstOf ++ joinSure ls b (e :: es) := by
  unfold joinSure
  rw [segments, segments, List.map_cons, List.map_cons, take_drop_split ls hab hbe, List.flatMap_append, inter_append]

theorem joinSure_space (ls : List (List (List Nat))) (a b e : Nat) (es : List Nat) :
    joinSure ls a (b :: e :: es) = ((ls.take b).drop a).flatMap firstOf ++ [32] ++ joinSure ls b (e :: es) := by
  unfold joinSure
  rw [segments, segments, List.map_cons, List.map_cons, inter_cons]

theorem joinSure_one (ls : List (List (List Nat))) (a : Nat) :
    joinSure ls a [ls.length] = (ls.drop a).flatMap firstOf := by
  unfold joinSure
  simp [segments, List.intercalate]

theorem joinSure_spaced (ls : List (List (List Nat))) (p : Nat → Bool) : ∀ (m b : Nat), b + m + 1 = ls.length →
    joinSure ls b ((List.range' (b + 1) m).filter p ++ [ls.length]) =
      ((ls.take (b + 1)).drop b).flatMap firstOf ++ spacedFrom p (b + 1) ((ls.drop (b + 1)).map firstOf)
  | 0, b, h => by
    rw [List.range'_zero, List.filter_nil, List.nil_append, joinSure_one, List.drop_eq_nil_of_le (i := b + 1) (by omega),
      List.take_of_length_le (by omega)]
    simp [spacedFrom]
  | m + 1, b, h => by
    have ih := joinSure_spaced ls p m (b + 1) (by omega)
    obtain ⟨e, es, hes⟩ : ∃ e es, (List.range' (b + 1 + 1) m).filter p ++ [ls.length] = e :: es := by
      cases h : (List.range' (b + 1 + 1) m).filter p ++ [ls.length] with
      | nil => simp at h
      | cons e es => exact ⟨e, es, rfl⟩
    have hbe : b + 1 ≤ e := by
      have : e ∈ (List.range' (b + 1 + 1) m).filter p ++ [ls.length] := by rw [hes]; exact List.mem_cons_self
      rcases List.mem_append.1 this with h' | h'
      · have := List.mem_range'_1.1 (List.mem_filter.1 h').1
        omega
      · rw [List.mem_singleton] at h'; omega
    have hd : ls.drop (b + 1) = ls[b + 1] :: ls.drop (b + 1 + 1) := List.drop_eq_getElem_cons (by omega)
    have ht : (ls.take (b + 1 + 1)).drop (b + 1) = [ls[b + 1]] := by
      rw [List.drop_take, hd, show b + 1 + 1 - (b + 1) = 1 by omega]
      rfl
    rw [ht] at ih
    rw [hd, List.map_cons, spacedFrom]
    rw [List.range'_succ, List.filter_cons]
    by_cases hp : p (b + 1) = true
    · rw [if_pos hp, List.cons_append, hes, joinSure_space, ← hes, ih, if_pos hp]
      simp
    · rw [if_neg hp, hes, joinSure_merge ls es (Nat.le_succ b) hbe, ← hes, ih, if_neg hp]
      simp

/-- The spaces that are kept are those of `spacedKept`. -/
theorem joinSure_all (ls : List (List (List Nat))) (p : Nat → Bool) (h0 : p 0 = false) :
    joinSure ls 0 (if ls = [] then [] else (List.range ls.length).filter p ++ [ls.length]) = spacedFrom p 0 (ls.map firstOf) := by
  cases ls with
  | nil => rfl
  | cons l ls =>
    rw [if_neg (by simp), List.range_eq_range', List.length_cons, List.range'_succ, List.filter_cons, if_neg (by simp [h0])]
    have := joinSure_spaced (l :: ls) p ls.length 0 (by simp)
    rw [List.length_cons] at this
    rw [this, List.map_cons, spacedFrom, h0]
    simp

/-- The first word and the rest, as the program handles them. -/
theorem joinSure_lead (ls : List (List (List Nat))) (bs : List Box) (hbl : bs.length = ls.length) (hs : ∀ l ∈ ls, Sure l)
    (e : Nat) (rest : List Nat) (her : gaps bs ++ [bs.length] = e :: rest) :
    ((ls.take e).takeWhile isSep).flatMap firstOf ++ joinSure ls ((ls.take e).takeWhile isSep).length
        (if ((ls.take e).takeWhile isSep).length = e then rest else e :: rest) =
      spacedKept bs (ls.map firstOf) := by
  unfold spacedKept
  rw [← joinSure_all _ _ (by simp)]
  have hlt : ∀ k ∈ gaps bs, k < ls.length ∧ Gap bs k := by
    intro k hk
    unfold gaps at hk
    obtain ⟨h1, h2⟩ := List.mem_filter.1 hk
    exact ⟨hbl ▸ List.mem_range.1 h1, of_decide_eq_true h2⟩
  have hgm : ∀ k, k < ls.length → Gap bs k → k ∈ gaps bs := by
    intro k h1 h2
    exact List.mem_filter.2 ⟨List.mem_range.2 (hbl ▸ h1), decide_eq_true h2⟩
  have hinc : (e :: rest).Pairwise (· < ·) := by
    rw [← her, List.pairwise_append]
    refine ⟨(List.pairwise_lt_range).filter _, by simp, ?_⟩
    intro a ha b hb
    rw [List.mem_singleton] at hb
    have := (hlt a ha).1
    omega
  have hnog : ∀ j < e, ¬ Gap bs j := by
    intro j hj hg
    have hjl : j < ls.length := by
      obtain ⟨b, hb, _⟩ := hg
      rw [← hbl]; exact (List.getElem?_eq_some_iff.1 hb).1
    have : j ∈ e :: rest := by rw [← her]; exact List.mem_append_left _ (hgm j hjl hg)
    rcases List.mem_cons.1 this with h | h
    · omega
    · have := (List.pairwise_cons.1 hinc).1 j h
      omega
  have hel : e ≤ ls.length := by
    have : e ∈ gaps bs ++ [bs.length] := by rw [her]; exact List.mem_cons_self
    rcases List.mem_append.1 this with h | h
    · exact Nat.le_of_lt (hlt e h).1
    · rw [List.mem_singleton] at h; omega
  -- the first word consists of marks iff it is its own lead
  have hsep : ∀ j, j < ls.length → isSep [(ls.map firstOf).getD j []] = isSep (ls.getD j []) := by
    intro j hj
    rw [List.getD_eq_getElem?_getD, List.getD_eq_getElem?_getD, List.getElem?_map, List.getElem?_eq_getElem hj,
      Option.map_some, Option.getD_some, Option.getD_some]
    have := hs _ (List.getElem_mem hj)
    cases hh : ls[j] with
    | nil => exact absurd hh this.1
    | cons w l => simp only [firstOf, isSep]
  have honly : OnlyMarks bs (ls.map firstOf) e ↔ ((ls.take e).takeWhile isSep).length = e := by
    constructor
    · intro h
      rw [takeWhile_self.2]
      · rw [List.length_take]; omega
      · intro l hl
        obtain ⟨j, hj, rfl⟩ := List.mem_iff_getElem.1 hl
        rw [List.length_take] at hj
        have := (h j (by omega)).2
        rw [hsep j (by omega), List.getD_eq_getElem?_getD, List.getElem?_eq_getElem (by omega), Option.getD_some] at this
        rw [List.getElem_take]; exact this
    · intro h j hj
      refine ⟨hnog j hj, ?_⟩
      have : (ls.take e).takeWhile isSep = ls.take e :=
        (List.takeWhile_sublist (l := ls.take e) isSep).eq_of_length (by rw [h, List.length_take]; omega)
      have := takeWhile_self.1 this ls[j] (List.mem_take_iff_getElem.2 ⟨j, by omega, rfl⟩)
      rw [hsep j (by omega), List.getD_eq_getElem?_getD, List.getElem?_eq_getElem (by omega), Option.getD_some, this]
  have hlead : (ls.take e).takeWhile isSep = ls.take ((ls.take e).takeWhile isSep).length := by
    have h1 := List.takeWhile_prefix (l := ls.take e) isSep
    have h2 := List.prefix_iff_eq_take.1 (h1.trans (List.take_prefix e ls))
    exact h2
  have hn0 : ((ls.take e).takeWhile isSep).length ≤ e := by
    have := (List.takeWhile_sublist (l := ls.take e) isSep).length_le
    rw [List.length_take] at this
    omega
  generalize hn : ((ls.take e).takeWhile isSep).length = n0 at *
  rw [hlead]
  -- the list of kept boundaries
  have hrest : ∀ k ∈ rest, 0 < k ∧ (k < ls.length → ¬ OnlyMarks bs (ls.map firstOf) k) := by
    intro k hk
    have hek := (List.pairwise_cons.1 hinc).1 k hk
    refine ⟨by omega, fun hkl ho => (ho e hek).1 ?_⟩
    have : e ∈ gaps bs ++ [bs.length] := by rw [her]; exact List.mem_cons_self
    rcases List.mem_append.1 this with h | h
    · exact (hlt e h).2
    · rw [List.mem_singleton] at h; omega
  have hkeep : (List.range ls.length).filter (fun k => decide (0 < k) && decide (Gap bs k) &&
      !decide (OnlyMarks bs (ls.map firstOf) k)) ++ [ls.length] =
      (e :: rest).filter fun k => decide (k = ls.length) || (decide (0 < k) && !decide (OnlyMarks bs (ls.map firstOf) k)) := by
    rw [← her, List.filter_append, hbl, List.filter_cons_of_pos (by simp), List.filter_nil, gaps, hbl, List.filter_filter]
    congr 1
    refine List.filter_congr fun k hk => ?_
    have := List.mem_range.1 hk
    rw [decide_eq_false (p := k = ls.length) (by omega)]
    by_cases hg : Gap bs k <;> simp [hg]
  have hrk : rest.filter (fun k => decide (k = ls.length) || (decide (0 < k) && !decide (OnlyMarks bs (ls.map firstOf) k))) =
      rest := by
    rw [List.filter_eq_self]
    intro k hk
    obtain ⟨h1, h2⟩ := hrest k hk
    by_cases hkl : k = ls.length
    · simp [hkl]
    · have hkl' : k < ls.length := by
        have : k ∈ gaps bs ++ [bs.length] := by rw [her]; exact List.mem_cons_of_mem _ hk
        rcases List.mem_append.1 this with h | h
        · exact (hlt k h).1
        · rw [List.mem_singleton] at h; omega
      simp [h1, h2 hkl']
  rw [hkeep, List.filter_cons, hrk]
  cases ls with
  | nil =>
    simp only [List.length_nil] at *
    have : e = 0 := by omega
    subst this
    have : n0 = 0 := by omega
    subst this
    have : rest = [] := by
      cases bs with
      | nil => simpa [gaps] using her.symm
      | cons b bs => simp at hbl
    subst this
    rfl
  | cons l ls =>
    rw [if_neg (by simp : ¬ l :: ls = [])]
    generalize hL : l :: ls = L at *
    have hLpos : 0 < L.length := by rw [← hL]; simp
    by_cases hne : n0 = e
    · rw [if_pos hne]
      subst hne
      by_cases hfull : n0 = L.length
      · have : rest = [] := by
          cases rest with
          | nil => rfl
          | cons r rest =>
            have h1 := (List.pairwise_cons.1 hinc).1 r List.mem_cons_self
            have : r ∈ gaps bs ++ [bs.length] := by rw [her]; simp
            rcases List.mem_append.1 this with h | h
            · have := (hlt r h).1; omega
            · rw [List.mem_singleton] at h; omega
        subst this
        rw [if_pos (by simp [hfull]), hfull, joinSure_one]
        simp [joinSure, segments, List.intercalate]
      · obtain ⟨r, rest', rfl⟩ : ∃ r rest', rest = r :: rest' := by
          cases rest with
          | nil =>
            have := congrArg List.getLast? her
            simp at this
            omega
          | cons r rest' => exact ⟨r, rest', rfl⟩
        rw [if_neg, joinSure_merge L rest' (Nat.zero_le n0) (Nat.le_of_lt ((List.pairwise_cons.1 hinc).1 r List.mem_cons_self))]
        · rfl
        · simp only [Bool.not_eq_true, Bool.or_eq_false_iff, decide_eq_false_iff_not, Bool.and_eq_false_iff,
            Bool.not_eq_false', decide_eq_true_eq]
          exact ⟨hfull, .inr (honly.2 rfl)⟩
    · rw [if_neg hne, if_pos, joinSure_merge L rest (Nat.zero_le n0) hn0]
      · rfl
      · have : ¬ OnlyMarks bs (L.map firstOf) e := fun h => hne (honly.1 h)
        simp [this]
        omega

end Ppocr

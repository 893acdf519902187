import Verif.Spec.AnyInfos
import Verif.Proofs.GlyphsLoad
import Verif.Proofs.WordLines
import Verif.Proofs.Disambiguouser

/-! # Looking for any word -/

namespace Ppocr
open Spec

/-- The search as a function of the words. -/
def searchRes (s : List Nat) : List (List Nat) → Nat → Res Nat
  | [], _ => .ok noIndex
  | w :: ws, i =>
    if 4 * ((w :: ws).map room).sum < 4 + s.length then .ub
    else if s <+: w then .ok i else if wordLt s w then .ok noIndex else searchRes s ws (i + room w)

theorem wordIndexLoop_exact {s : List Nat} (hs : ∀ c ∈ s, c ≠ 0) : ∀ (ws : List (List Nat)) (done rest : List (Option Nat))
    (views : List (List View)) (i fuel : Nat),
    done.length = 4 * i → Blocks ws rest → i + (ws.map room).sum < W32 → ws.length < fuel →
    (∀ w ∈ ws, w.length % 4 = 0 → ¬ w <+: s ∨ s = w) → (∀ w ∈ ws, w.length < W32) →
    wordIndexLoop ⟨views, done ++ rest, i + (ws.map room).sum⟩ s fuel i = searchRes s ws i
  | _, _, _, _, _, 0, _, _, _, h, _, _ => by omega
  | [], done, rest, views, i, fuel + 1, _, _, _, _, _, _ => by
    rw [wordIndexLoop]
    simp [searchRes]
  | w :: ws, done, _, views, i, fuel + 1, hd, .cons _ _ pad rest hp hn hb, hsz, hf, h4, h32 => by
    have hr := room_bytes w
    have hbl := hb.length
    simp only [List.map_cons, List.sum_cons] at hsz
    have hroom : 0 < room w := by unfold room; omega
    have l4 : ((le4 w.length).map some).length = 4 := rfl
    rw [searchRes, wordIndexLoop]
    simp only [List.map_cons, List.sum_cons]
    rw [if_pos (by omega)]
    by_cases hov : 4 * (room w + (ws.map room).sum) < 4 + s.length
    · rw [if_pos hov]
      unfold wordCompare
      rw [if_neg (by simp only [List.length_append, List.length_map, hd, hp] at l4 ⊢; omega)]
      rfl
    rw [if_neg hov]
    have hcmp : wordCompare (done ++ ((le4 w.length).map some ++ (w.map some ++ (pad ++ rest)))) s i =
        .ok (if s <+: w then 0 else if wordLt s w then -1 else 1) := by
      unfold wordCompare
      rw [if_pos (by simp only [List.length_append, List.length_map, hd, hp] at l4 ⊢; omega)]
      have hdrop : (done ++ ((le4 w.length).map some ++ (w.map some ++ (pad ++ rest)))).drop (4 * i + 4) =
          w.map some ++ (pad ++ rest) := by
        rw [← hd, List.drop_append, List.drop_of_length_le (by omega), List.nil_append,
          show done.length + 4 - done.length = 4 by omega, List.drop_append, List.drop_of_length_le (by omega), l4]
        rfl
      rw [hdrop]
      by_cases hw4 : w.length % 4 = 0
      · exact memCmp_short s w _ (h4 w (by simp) hw4)
      · have := hn hw4
        cases pad with
        | nil => simp at this
        | cons y pad =>
          simp only [List.head?_cons, Option.some.injEq] at this
          subst this
          exact memCmp_word s w _ hs
    rw [hcmp, Res.ok_bind]
    by_cases hpre : s <+: w
    · rw [if_pos hpre, if_pos hpre]
      simp
    · rw [if_neg hpre, if_neg hpre]
      by_cases hlt : wordLt s w = true
      · rw [if_pos hlt, if_pos hlt]
        simp
      · have hholds : Holds (done ++ ((le4 w.length).map some ++ (w.map some ++ (pad ++ rest)))) i w := by
          constructor
          · intro k hk
            rw [← hd, List.getElem?_append_right (by omega), List.getElem?_append_left (by rw [l4]; omega),
              Nat.add_sub_cancel_left, List.getElem?_map, le4_get _ _ hk]
            rfl
          · intro k c hk
            have hkl : k < w.length := by
              rcases Nat.lt_or_ge k w.length with h | h
              · exact h
              · rw [List.getElem?_eq_none h] at hk
                simp at hk
            rw [← hd, List.getElem?_append_right (by omega), List.getElem?_append_right (by rw [l4]; omega),
              List.getElem?_append_left (by simp only [List.length_map] at l4 ⊢; omega), l4,
              show done.length + 4 + k - done.length - 4 = k by omega, List.getElem?_map, hk]
            rfl
        have hmod : (i + (w.length + 4 * 2 - 1) / 4) % W32 = i + room w := by
          have : (w.length + 4 * 2 - 1) / 4 = room w := by unfold room; omega
          rw [this]
          exact Nat.mod_eq_of_lt (by omega)
        have hw32 : w.length < W32 := h32 w (by simp)
        rw [if_neg hlt, if_neg hlt, if_neg (by decide), wordSize_of hholds hw32, Res.ok_bind, hmod]
        have ih := wordIndexLoop_exact hs ws (done ++ ((le4 w.length).map some ++ (w.map some ++ pad))) rest views
          (i + room w) fuel (by simp only [List.length_append, List.length_map, hd, hp] at l4 ⊢; omega) hb
          (by omega) (by simpa using hf) (fun v hv => h4 v (by simp [hv]))
          (fun v hv => h32 v (by simp [hv]))
        rw [← ih]
        simp only [List.append_assoc, Nat.add_assoc]

/-- The search is undefined exactly when it comes to a word behind which there is too little, and otherwise finds the first word that
begins with `s`. -/
theorem searchRes_eq {s : List Nat} : ∀ {ws : List (List Nat)} (i : Nat), Increasing ws →
    (Overruns ws s → searchRes s ws i = .ub) ∧ (¬ Overruns ws s → searchRes s ws i = .ok (searchFrom s ws i))
  | [], i, _ => by
    refine ⟨?_, fun _ => rfl⟩
    rintro ⟨pre, w, post, h, _⟩
    simp at h
  | w :: ws, i, hi => by
    obtain ⟨ih1, ih2⟩ := searchRes_eq (s := s) (ws := ws) (i + room w) (List.pairwise_cons.1 hi).2
    rw [searchRes, searchFrom]
    by_cases hov : 4 * ((w :: ws).map room).sum < 4 + s.length
    · rw [if_pos hov]
      refine ⟨fun _ => rfl, fun h => absurd ⟨[], w, ws, rfl, hov, by simp⟩ h⟩
    rw [if_neg hov]
    have hbig : ∀ pre x post, w :: ws = pre ++ x :: post → 4 * ((x :: post).map room).sum < 4 + s.length → ∃ pre', pre = w :: pre' := by
      intro pre x post e h
      cases pre with
      | nil =>
        rw [List.nil_append] at e
        rw [← e] at h
        exact absurd h hov
      | cons y pre =>
        simp only [List.cons_append, List.cons.injEq] at e
        exact ⟨pre, by rw [e.1]⟩
    by_cases hpre : s <+: w
    · rw [if_pos hpre, if_pos hpre]
      refine ⟨?_, fun _ => rfl⟩
      rintro ⟨pre, x, post, e, h, hv⟩
      obtain ⟨pre', rfl⟩ := hbig pre x post e h
      have h1 := hv w (by simp)
      rcases wordLt_prefix hpre with rfl | h2
      · rw [wordLt_irrefl] at h1
        cases h1
      · rw [wordLt_asymm h2] at h1
        cases h1
    · rw [if_neg hpre, if_neg hpre]
      by_cases hlt : wordLt s w = true
      · rw [if_pos hlt]
        refine ⟨?_, fun _ => by rw [searchFrom_none fun v hv => find?_prefix_eq hi hlt hpre v (by simp [hv])]⟩
        rintro ⟨pre, x, post, e, h, hv⟩
        obtain ⟨pre', rfl⟩ := hbig pre x post e h
        have h1 := hv w (by simp)
        rw [wordLt_asymm hlt] at h1
        cases h1
      · rw [if_neg hlt]
        have hlt' : wordLt w s = true := by
          cases hh : wordLt w s with
          | true => rfl
          | false =>
            have := wordLt_total w s hh (by simpa using hlt)
            exact absurd (by rw [this]; exact List.prefix_refl _) hpre
        refine ⟨?_, fun hn => ih2 fun h => hn ?_⟩
        · rintro ⟨pre, x, post, e, h, hv⟩
          obtain ⟨pre', rfl⟩ := hbig pre x post e h
          simp only [List.cons_append, List.cons.injEq, true_and] at e
          exact ih1 ⟨pre', x, post, e, h, fun v hv' => hv v (by simp [hv'])⟩
        · obtain ⟨pre, x, post, rfl, h, hv⟩ := h
          refine ⟨w :: pre, x, post, rfl, h, ?_⟩
          intro v hv'
          rcases List.mem_cons.1 hv' with rfl | hv'
          · exact hlt'
          · exact hv v hv'

end Ppocr

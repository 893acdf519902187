import Verif.Proofs.Shown6
import Verif.Props.Line6

/-! # Lemmas about the glyphs of `extract_text6` in another order and among others -/

namespace Ppocr
open Spec Props

theorem letterWords_eq (R R' : Image → Letter6) : ∀ (as seen : List Image), (∀ a ∈ as, R a = R' a) → letterWords R seen as = letterWords R' seen as
  | [], _, _ => rfl
  | a :: as, seen, h => by
    rw [letterWords, letterWords, h a (by simp), letterWords_eq R R' as (a :: seen) fun b hb => h b (by simp [hb])]

theorem eachSpaced_eq {f g : Image → List Nat} {as : List Image} (h : ∀ a ∈ as, f a = g a) : eachSpaced f as = eachSpaced g as := by
  unfold eachSpaced
  rw [List.flatMap_def, List.flatMap_def, List.map_congr_left fun a ha => by rw [h a ha]]

/-! ### The glyphs in another order -/

theorem perm_map_inv {α β : Type} (f : α → β) {l' l : List β} (h : l'.Perm l) : ∀ m : List α, l = m.map f → ∃ m' : List α, m'.Perm m ∧ l' = m'.map f := by
  induction h with
  | nil =>
    intro m hm
    exact ⟨m, .refl _, hm⟩
  | cons x h ih =>
    intro m hm
    cases m with
    | nil => cases hm
    | cons a m =>
      rw [List.map_cons, List.cons.injEq] at hm
      obtain ⟨m', p, e⟩ := ih m hm.2
      exact ⟨a :: m', p.cons a, by rw [e, hm.1, List.map_cons]⟩
  | swap x y l =>
    intro m hm
    cases m with
    | nil => cases hm
    | cons a m =>
      cases m with
      | nil => simp at hm
      | cons b m =>
        simp only [List.map_cons, List.cons.injEq] at hm
        exact ⟨b :: a :: m, .swap _ _ _, by simp [hm.1, hm.2.1, hm.2.2]⟩
  | trans h1 h2 ih1 ih2 =>
    intro m hm
    obtain ⟨m', p, e⟩ := ih2 m hm
    obtain ⟨m'', p', e'⟩ := ih1 m' e
    exact ⟨m'', p'.trans p, e'⟩

theorem perm_moved {gs gs' : List LGlyph} (h : gs'.Perm gs) (W : LGlyph → Words) :
    ∃ idx, Moved6 idx (gs.map LGlyph.img) (gs.map W) (gs'.map LGlyph.img) (gs'.map W) := by
  obtain ⟨idx, p, e⟩ := perm_map_inv (fun k => gs.getD k ⟨⟨⟨0, 0⟩, []⟩, []⟩) h (List.range gs.length) (by
    apply List.ext_getElem
    · simp
    · intro k h1 h2
      simp [h1])
  have hget : ∀ k j : Nat, idx[k]? = some j → gs'[k]? = gs[j]? := by
    intro k j hj
    have hlt : j < gs.length := by simpa using p.mem_iff.1 (List.mem_of_getElem? hj)
    rw [e, List.getElem?_map, hj, List.getElem?_eq_getElem hlt]
    simp [hlt]
  refine ⟨idx, by simpa using p, ?_, ?_, by simp [h.length_eq], by simp [h.length_eq], by simp⟩
  · intro k j hj
    rw [List.getElem?_map, List.getElem?_map, hget k j hj]
  · intro k j hj
    rw [List.getElem?_map, List.getElem?_map, hget k j hj]

/-- What `extract_text6` looks at of a glyph: the picture and the words. -/
def pictured (g : LGlyph) : Image × Words := (g.img, glyphWords g)

theorem pictured_perm {gs gs' : List LGlyph} (h : (gs'.map pictured).Perm (gs.map pictured)) : ∃ gs'' : List LGlyph, gs''.Perm gs ∧
    gs'.map LGlyph.img = gs''.map LGlyph.img ∧ gs'.map glyphWords = gs''.map glyphWords := by
  obtain ⟨gs'', p, e⟩ := perm_map_inv pictured h gs rfl
  have h1 := congrArg (List.map Prod.fst) e
  have h2 := congrArg (List.map Prod.snd) e
  rw [List.map_map, List.map_map] at h1 h2
  exact ⟨gs'', p, h1, h2⟩

/-! ### More glyphs -/

section
variable {imgs more : List Image} {ws ns : List Words} {a : Image}

theorem match_left {k : Nat} (h : Match6 imgs a k) : Match6 (imgs ++ more) a k := by
  obtain ⟨i, hi, he⟩ := h
  exact ⟨i, by rw [List.getElem?_append_left (List.getElem?_eq_some_iff.1 hi).1]; exact hi, he⟩

theorem near_left (hfar : ∀ i ∈ more, ¬ Near6 i a) {k : Nat} {i : Image} (h : (imgs ++ more)[k]? = some i) (hn : Near6 i a) :
    imgs[k]? = some i := by
  by_cases hk : k < imgs.length
  · rw [List.getElem?_append_left hk] at h
    exact h
  · rw [List.getElem?_append_right (by omega)] at h
    exact absurd hn (hfar i (List.mem_of_getElem? h))

theorem match_more (hfar : ∀ i ∈ more, ¬ Near6 i a) {k : Nat} : Match6 (imgs ++ more) a k ↔ Match6 imgs a k :=
  ⟨fun ⟨i, hi, he⟩ => ⟨i, near_left hfar hi (exact_near he), he⟩, match_left⟩

theorem twin_more (hnew : ∀ v ∈ ws, ∀ u ∈ ns, u.head? ≠ v.head?) {g j : Nat} (hg : g < ws.length) :
    Twin6 (ws ++ ns) g j ↔ Twin6 ws g j := by
  constructor
  · rintro ⟨hne, v, u, hv, hu, e⟩
    rw [List.getElem?_append_left hg] at hv
    refine ⟨hne, v, u, hv, ?_, e⟩
    by_cases hj : j < ws.length
    · rw [List.getElem?_append_left hj] at hu
      exact hu
    · rw [List.getElem?_append_right (by omega)] at hu
      exact absurd e (hnew v (List.mem_of_getElem? hv) u (List.mem_of_getElem? hu))
  · rintro ⟨hne, v, u, hv, hu, e⟩
    exact ⟨hne, v, u, by rw [List.getElem?_append_left hg]; exact hv,
      by rw [List.getElem?_append_left (List.getElem?_eq_some_iff.1 hu).1]; exact hu, e⟩

theorem twin_lt {g j : Nat} (h : Twin6 ws g j) : j < ws.length := by
  obtain ⟨_, _, _, _, hu, _⟩ := h
  exact (List.getElem?_eq_some_iff.1 hu).1

theorem kept_more (hl : ws.length = imgs.length) (hfar : ∀ i ∈ more, ¬ Near6 i a) (hnew : ∀ v ∈ ws, ∀ u ∈ ns, u.head? ≠ v.head?)
    {k : Nat} : Kept6 (imgs ++ more) (ws ++ ns) a k ↔ Kept6 imgs ws a k := by
  have hsome : ∀ {j : Nat}, j < ws.length → (imgs ++ more)[j]? = imgs[j]? := fun hj => List.getElem?_append_left (by omega)
  constructor
  · rintro ⟨⟨i, hi, h1, h2⟩, h3⟩
    have hi := near_left hfar hi h1
    have hk : k < ws.length := by rw [hl]; exact (List.getElem?_eq_some_iff.1 hi).1
    refine ⟨⟨i, hi, h1, h2⟩, ?_⟩
    rcases h3 with h3 | ⟨j, b, h3, h4, h5⟩
    · exact .inl fun j hj => h3 j ((twin_more hnew hk).2 hj)
    · have h3 := (twin_more hnew hk).1 h3
      exact .inr ⟨j, b, h3, by rw [← hsome (twin_lt h3)]; exact h4, h5⟩
  · rintro ⟨⟨i, hi, h1, h2⟩, h3⟩
    have hk : k < ws.length := by rw [hl]; exact (List.getElem?_eq_some_iff.1 hi).1
    refine ⟨⟨i, by rw [hsome hk]; exact hi, h1, h2⟩, ?_⟩
    rcases h3 with h3 | ⟨j, b, h3, h4, h5⟩
    · exact .inl fun j hj => h3 j ((twin_more hnew hk).1 hj)
    · exact .inr ⟨j, b, (twin_more hnew hk).2 h3, by rw [hsome (twin_lt h3)]; exact h4, h5⟩

theorem read_more (hl : ws.length = imgs.length) (hfar : ∀ i ∈ more, ¬ Near6 i a) (hnew : ∀ v ∈ ws, ∀ u ∈ ns, u.head? ≠ v.head?)
    {Q : List (Words × Bool) → List (Words × Bool) → Prop} {o : Letter6} (h : ReadBy Q (imgs ++ more) (ws ++ ns) a o) : ReadBy Q imgs ws a o := by
  obtain ⟨near, kept, ln, lk, n, k, e⟩ := h
  have hw : ∀ {j : Nat}, j < imgs.length → (ws ++ ns)[j]? = ws[j]? := fun hj => List.getElem?_append_left (by omega)
  have hN : ∀ v, (∃ (j : Nat) (i : Image), (imgs ++ more)[j]? = some i ∧ Near6 i a ∧ (ws ++ ns)[j]? = some v) ↔
      ∃ (j : Nat) (i : Image), imgs[j]? = some i ∧ Near6 i a ∧ ws[j]? = some v := by
    intro v
    constructor
    · rintro ⟨j, i, h1, h2, h3⟩
      have h1 := near_left hfar h1 h2
      exact ⟨j, i, h1, h2, by rw [← hw (List.getElem?_eq_some_iff.1 h1).1]; exact h3⟩
    · rintro ⟨j, i, h1, h2, h3⟩
      have hlt := (List.getElem?_eq_some_iff.1 h1).1
      exact ⟨j, i, by rw [List.getElem?_append_left hlt]; exact h1, h2, by rw [hw hlt]; exact h3⟩
  have hM : ∀ v, (∃ j, Match6 (imgs ++ more) a j ∧ (ws ++ ns)[j]? = some v) ↔ ∃ j, Match6 imgs a j ∧ ws[j]? = some v := by
    intro v
    refine exists_congr fun j => ?_
    rw [match_more hfar]
    refine and_congr_right fun ⟨i, hi, _⟩ => ?_
    rw [hw (List.getElem?_eq_some_iff.1 hi).1]
  have hK : ∀ v, (∃ j, Kept6 (imgs ++ more) (ws ++ ns) a j ∧ (ws ++ ns)[j]? = some v) ↔ ∃ j, Kept6 imgs ws a j ∧ ws[j]? = some v := by
    intro v
    refine exists_congr fun j => ?_
    rw [kept_more hl hfar hnew]
    refine and_congr_right fun ⟨⟨i, hi, _⟩, _⟩ => ?_
    rw [hw (List.getElem?_eq_some_iff.1 hi).1]
  refine ⟨near, kept, ln, lk, ⟨n.up, fun v b => ?_⟩, fun hno => ?_, e⟩
  · rw [n.mem, hN, hM]
  · have k := k fun j hj => hno j ((match_more hfar).1 hj)
    exact ⟨k.up, fun v b => by rw [k.mem, hK]⟩

theorem jam_more (hl : ws.length = imgs.length) (hfar : ∀ i ∈ more, ¬ Near6 i a) (hnew : ∀ v ∈ ws, ∀ u ∈ ns, u.head? ≠ v.head?)
    (h : Jam6 (imgs ++ more) (ws ++ ns) a) : Jam6 imgs ws a := by
  obtain ⟨h0, g, i, j, b, h1, h2, h3, h4, h5, h6⟩ := h
  have h1 := near_left hfar h1 h2
  have hg : g < ws.length := by rw [hl]; exact (List.getElem?_eq_some_iff.1 h1).1
  have h4 := (twin_more hnew hg).1 h4
  refine ⟨fun k hk => h0 k (match_left hk), g, i, j, b, h1, h2, h3, h4, ?_, h6⟩
  rw [List.getElem?_append_left (by have := twin_lt h4; omega)] at h5
  exact h5

end

end Ppocr

import Verif.Proofs.Letter6
import Verif.Proofs.Trie
import Verif.Proofs.Ocr2Tables

/-! # Helper lemmas: sorting, gathering and word groups of `extract_text6` -/

namespace Ppocr
open Spec Props

/-! ## Probabilities -/

theorem less_crisp {p q : Prob6} {a b : Bool} (hp : p.Crisp a) (hq : q.Crisp b) : p.less q = (!a && b) := by
  obtain ⟨h1, h2⟩ := hp
  obtain ⟨h3, h4⟩ := hq
  unfold Prob6.less
  rw [h2, h4]
  have hm : 0 < q.den * p.den := Nat.mul_pos h3 h1
  have := Nat.mul_comm p.den q.den
  cases a <;> cases b <;> simp <;> omega

theorem less_one {p : Prob6} {a : Bool} (hp : p.Crisp a) : p.less ⟨1, 1⟩ = !a := by
  rw [less_crisp (q := ⟨1, 1⟩) (b := true) hp ⟨by decide, rfl⟩, Bool.and_true]

theorem crisp_mulDiv {p : Prob6} {x c : Nat} (hp : p.Crisp false) (hc : 0 < c) : (p.mulDiv x c).Crisp false := by
  obtain ⟨h1, h2⟩ := hp
  refine ⟨Nat.mul_pos h1 hc, ?_⟩
  show p.num * x = _
  rw [h2]
  simp

/-! ## The order of lists of words -/

theorem mismatch_none : ∀ a b : Words, a.length = b.length → (mismatchLt a b = none ↔ a = b)
  | [], [], _ => by simp [mismatchLt]
  | x :: a, y :: b, h => by
    rw [mismatchLt]
    by_cases e : x = y
    · rw [if_pos e, mismatch_none a b (by simpa using h)]; simp [e]
    · rw [if_neg e]; simp [e]

theorem mismatch_trans : ∀ a b c : Words, mismatchLt a b = some true → mismatchLt b c = some true → mismatchLt a c = some true
  | [], _, _, h, _ => by simp [mismatchLt] at h
  | _ :: _, [], _, h, _ => by simp [mismatchLt] at h
  | _ :: _, _ :: _, [], _, h => by simp [mismatchLt] at h
  | x :: a, y :: b, z :: c, h1, h2 => by
    rw [mismatchLt] at h1 h2 ⊢
    by_cases e1 : x = y
    · rw [if_pos e1] at h1
      by_cases e2 : y = z
      · rw [if_pos e2] at h2
        rw [if_pos (e1.trans e2)]
        exact mismatch_trans a b c h1 h2
      · rw [if_neg e2] at h2
        rw [e1, if_neg e2]
        exact h2
    · rw [if_neg e1, Option.some.injEq] at h1
      by_cases e2 : y = z
      · rw [← e2, if_neg e1, h1]
      · rw [if_neg e2, Option.some.injEq] at h2
        have := wordLt_trans _ _ _ h1 h2
        have ne : x ≠ z := by
          intro e
          rw [e, wordLt_irrefl] at this
          cases this
        rw [if_neg ne, this]

theorem mismatch_anti : ∀ a b : Words, mismatchLt a b = some false ↔ mismatchLt b a = some true
  | [], b => by cases b <;> simp [mismatchLt]
  | _ :: _, [] => by simp [mismatchLt]
  | x :: a, y :: b => by
    rw [mismatchLt, mismatchLt]
    by_cases e : x = y
    · rw [if_pos e, if_pos e.symm]; exact mismatch_anti a b
    · rw [if_neg e, if_neg (Ne.symm e), Option.some.injEq, Option.some.injEq]
      constructor
      · intro h
        cases h2 : wordLt y x with
        | true => rfl
        | false => exact absurd (wordLt_total _ _ h h2) e
      · intro h
        cases h2 : wordLt x y with
        | false => rfl
        | true =>
          have := wordLt_trans _ _ _ h h2
          rw [wordLt_irrefl] at this
          cases this

/-- The order of lists of words: by length, then by the first word that differs. -/
def WordsLt (a b : Words) : Prop := a.length < b.length ∨ (a.length = b.length ∧ mismatchLt a b = some true)

theorem wordsLt_irrefl (a : Words) : ¬ WordsLt a a := by
  rintro (h | ⟨_, h⟩)
  · omega
  · rw [(mismatch_none a a rfl).2 rfl] at h; cases h

theorem wordsLt_trans {a b c : Words} (h1 : WordsLt a b) (h2 : WordsLt b c) : WordsLt a c := by
  unfold WordsLt at *
  rcases h1 with h1 | ⟨h1, h1'⟩ <;> rcases h2 with h2 | ⟨h2, h2'⟩
  · left; omega
  · left; omega
  · left; omega
  · exact .inr ⟨h1.trans h2, mismatch_trans _ _ _ h1' h2'⟩

theorem wordsLt_total (a b : Words) : WordsLt a b ∨ a = b ∨ WordsLt b a := by
  unfold WordsLt
  rcases Nat.lt_trichotomy a.length b.length with h | h | h
  · exact .inl (.inl h)
  · cases e : mismatchLt a b with
    | none => exact .inr (.inl ((mismatch_none a b h).1 e))
    | some v =>
      cases v with
      | true => exact .inl (.inr ⟨h, rfl⟩)
      | false => exact .inr (.inr (.inr ⟨h.symm, (mismatch_anti a b).1 e⟩))
  · exact .inr (.inr (.inl h))

/-- The order of candidates: by their words, the more probable ones first. -/
def ShowLt (words : List Words) (g : Nat → Bool) (a b : Nat × Prob6) : Prop :=
  WordsLt (words.getD a.1 []) (words.getD b.1 []) ∨
    (words.getD a.1 [] = words.getD b.1 [] ∧ g a.1 = true ∧ g b.1 = false)

theorem ltShow_ok {words : List Words} {g : Nat → Bool} {a b : Nat × Prob6} (ha : a.1 < words.length) (hb : b.1 < words.length)
    (ca : a.2.Crisp (g a.1)) (cb : b.2.Crisp (g b.1)) : ∃ v, ltShow Prob6.less words a b = .ok v ∧ (v = true ↔ ShowLt words g a b) := by
  have e1 : words.getD a.1 [] = words[a.1] := by rw [List.getD_eq_getElem?_getD, List.getElem?_eq_getElem ha]; rfl
  have e2 : words.getD b.1 [] = words[b.1] := by rw [List.getD_eq_getElem?_getD, List.getElem?_eq_getElem hb]; rfl
  unfold ltShow ShowLt
  rw [rd_of_lt ha, Res.ok_bind, rd_of_lt hb, Res.ok_bind, e1, e2]
  by_cases h1 : words[a.1].length < words[b.1].length
  · rw [if_pos h1]
    exact ⟨true, rfl, by simp [WordsLt, h1]⟩
  · rw [if_neg h1]
    by_cases h2 : words[a.1].length > words[b.1].length
    · rw [if_pos h2]
      refine ⟨false, rfl, by simp, ?_⟩
      rintro ((h | h) | h)
      · omega
      · omega
      · rw [h.1] at h2; omega
    · rw [if_neg h2]
      have hl : words[a.1].length = words[b.1].length := by omega
      refine ⟨_, rfl, ?_⟩
      cases hm : mismatchLt words[a.1] words[b.1] with
      | none =>
        have := (mismatch_none _ _ hl).1 hm
        rw [Option.getD_none, less_crisp cb ca, this]
        constructor
        · intro h
          simp only [Bool.and_eq_true, Bool.not_eq_true'] at h
          exact .inr ⟨rfl, h.2, h.1⟩
        · rintro (h | ⟨_, h3, h4⟩)
          · exact absurd h (wordsLt_irrefl _)
          · rw [h3, h4]; rfl
      | some v =>
        rw [Option.getD_some]
        constructor
        · rintro rfl; exact .inl (.inr ⟨hl, hm⟩)
        · rintro ((h | ⟨_, h⟩) | ⟨h, _⟩)
          · omega
          · rw [hm] at h; simpa using h
          · rw [(mismatch_none _ _ hl).2 h] at hm; cases hm

theorem showLt_irr (words : List Words) (g : Nat → Bool) (a : Nat × Prob6) : ¬ ShowLt words g a a := by
  rintro (h | ⟨_, h1, h2⟩)
  · exact wordsLt_irrefl _ h
  · rw [h1] at h2; cases h2

theorem showLt_trans {words : List Words} {g : Nat → Bool} {a b c : Nat × Prob6} (h1 : ShowLt words g a b)
    (h2 : ShowLt words g b c) : ShowLt words g a c := by
  unfold ShowLt at *
  rcases h1 with h1 | ⟨e1, h1, h1'⟩ <;> rcases h2 with h2 | ⟨e2, h2, h2'⟩
  · exact .inl (wordsLt_trans h1 h2)
  · exact .inl (e2 ▸ h1)
  · exact .inl (e1 ▸ h2)
  · rw [h1'] at h2; cases h2

theorem showLt_inc {words : List Words} {g : Nat → Bool} {a b : Nat × Prob6} (h1 : ¬ ShowLt words g a b) (h2 : ¬ ShowLt words g b a) :
    words.getD a.1 [] = words.getD b.1 [] ∧ g a.1 = g b.1 := by
  unfold ShowLt at *
  rcases wordsLt_total (words.getD a.1 []) (words.getD b.1 []) with h | h | h
  · exact absurd (.inl h) h1
  · refine ⟨h, ?_⟩
    cases ga : g a.1 <;> cases gb : g b.1
    · rfl
    · exact absurd (.inr ⟨h.symm, gb, ga⟩) h2
    · exact absurd (.inr ⟨h, ga, gb⟩) h1
    · rfl
  · exact absurd (.inl h) h2

/-- `std::unique` by a key: a sublist, and every element has one in front of it, or itself, with its key. -/
theorem uniqueFrom_key {α κ : Type} [DecidableEq κ] {eq : α → α → Res Bool} {f : α → κ} {Q : α → α → Prop} (hQ : ∀ a, Q a a) :
    ∀ (l : List α) (a : α), (∀ x ∈ a :: l, ∀ y ∈ a :: l, eq x y = .ok (decide (f x = f y))) → (a :: l).Pairwise Q →
    ∃ r, uniqueFrom eq a l = .ok r ∧ a ∈ r ∧ r.Sublist (a :: l) ∧ ∀ x ∈ a :: l, ∃ y ∈ r, f y = f x ∧ Q y x := by
  intro l
  induction l with
  | nil =>
    intro a _ _
    refine ⟨[a], rfl, by simp, List.Sublist.refl _, ?_⟩
    intro x hx
    have hx := List.mem_singleton.1 hx
    exact ⟨a, by simp, by rw [hx], by rw [hx]; exact hQ a⟩
  | cons b l ih =>
    intro a he hp
    have hab := he a (by simp) b (by simp)
    rw [uniqueFrom, hab, Res.ok_bind]
    by_cases h : f a = f b
    · rw [if_pos (by simpa using h)]
      obtain ⟨r, e, ha, hs, hr⟩ := ih a (fun x hx y hy => he x (by
          rcases List.mem_cons.1 hx with rfl | hx
          · simp
          · simp [hx]) y (by
          rcases List.mem_cons.1 hy with rfl | hy
          · simp
          · simp [hy]))
        (hp.sublist (List.Sublist.cons_cons a (List.sublist_cons_self b l)))
      refine ⟨r, e, ha, hs.trans (List.Sublist.cons_cons a (List.sublist_cons_self b l)), ?_⟩
      intro x hx
      rcases List.mem_cons.1 hx with rfl | hx
      · exact hr x (by simp)
      · rcases List.mem_cons.1 hx with rfl | hx
        · exact ⟨a, ha, h, List.rel_of_pairwise_cons hp (by simp)⟩
        · exact hr x (by simp [hx])
    · rw [if_neg (by simpa using h)]
      obtain ⟨r, e, _, hs, hr⟩ := ih b (fun x hx y hy => he x (List.mem_cons_of_mem _ hx) y (List.mem_cons_of_mem _ hy)) hp.of_cons
      refine ⟨a :: r, by rw [e, Res.ok_bind]; rfl, by simp, hs.cons_cons a, ?_⟩
      intro x hx
      rcases List.mem_cons.1 hx with rfl | hx
      · exact ⟨x, by simp, rfl, hQ x⟩
      · obtain ⟨y, hy, h1, h2⟩ := hr x hx
        exact ⟨y, List.mem_cons_of_mem _ hy, h1, h2⟩

theorem sortShow_ok (S : StdSort) {words : List Words} {ps : Probs6} {g : Nat → Bool} (hl : ∀ q ∈ ps, q.1 < words.length)
    (hc : ∀ q ∈ ps, q.2.Crisp (g q.1)) :
    ∃ r, sortShow S Prob6.less words ps = .ok r ∧ (∀ q ∈ r, q ∈ ps) ∧ (r.Pairwise fun a b => ¬ (g a.1 = false ∧ g b.1 = true)) ∧
      ∀ q ∈ ps, ∃ q' ∈ r, words.getD q'.1 [] = words.getD q.1 [] ∧ (g q.1 = true → g q'.1 = true) := by
  unfold sortShow
  cases hps : ps with
  | nil => exact ⟨[], rfl, by simp, .nil, by simp⟩
  | cons p0 ps0 =>
    rw [if_neg (by simp), ← hps]
    obtain ⟨l, e1, hp1, hs1⟩ := sortRes_ok (S := S) (lt := ltShow Prob6.less words) (l := ps) (ShowLt words g)
      (fun a ha b hb => ltShow_ok (hl a ha) (hl b hb) (hc a ha) (hc b hb))
      (fun a _ => showLt_irr words g a) (fun _ _ _ _ _ _ h1 h2 => showLt_trans h1 h2)
      (by
        intro a _ b _ c _ h1 h2 h3 h4
        obtain ⟨x1, x2⟩ := showLt_inc h1 h2
        obtain ⟨y1, y2⟩ := showLt_inc h3 h4
        constructor
        · rintro (h | ⟨_, h5, h6⟩)
          · rw [x1, y1] at h; exact wordsLt_irrefl _ h
          · rw [x2, y2, h6] at h5; cases h5
        · rintro (h | ⟨_, h5, h6⟩)
          · rw [x1, y1] at h; exact wordsLt_irrefl _ h
          · rw [x2, y2, h5] at h6; cases h6)
    have hlen : l.length = ps.length := hp1.length_eq
    obtain ⟨u, e2, hu, hcov⟩ : ∃ u, uniqueBy (fun a b : Nat × Prob6 => do
          let v1 ← rd words a.1
          let v2 ← rd words b.1
          return decide (v1 = v2)) l = .ok u ∧ u.Sublist l ∧ ∀ x ∈ l, ∃ y ∈ u, words.getD y.1 [] = words.getD x.1 [] ∧
            ¬ ShowLt words g x y := by
      cases l with
      | nil => exact ⟨[], rfl, List.Sublist.refl _, by simp⟩
      | cons a l =>
        obtain ⟨u, e, _, h1, h2⟩ := uniqueFrom_key (κ := Words) (eq := fun a b : Nat × Prob6 => do
          let v1 ← rd words a.1
          let v2 ← rd words b.1
          return decide (v1 = v2)) (f := fun q => words.getD q.1 []) (Q := fun y x => ¬ ShowLt words g x y)
          (fun a => showLt_irr words g a) l a (by
            intro x hx y hy
            have hx' := hl x (hp1.mem_iff.1 hx)
            have hy' := hl y (hp1.mem_iff.1 hy)
            rw [rd_of_lt hx', Res.ok_bind, rd_of_lt hy', Res.ok_bind, List.getD_eq_getElem?_getD, List.getD_eq_getElem?_getD,
              List.getElem?_eq_getElem hx', List.getElem?_eq_getElem hy']
            rfl) hs1
        exact ⟨u, e, h1, h2⟩
    have hum : ∀ q ∈ u, q ∈ ps := fun q hq => hp1.mem_iff.1 (hu.mem hq)
    obtain ⟨r, e3, hp3, hs3⟩ := sortRes_ok (S := S) (lt := fun a b : Nat × Prob6 => .ok (b.2.less a.2)) (l := u)
      (fun a b => g a.1 = true ∧ g b.1 = false)
      (by
        intro a ha b hb
        refine ⟨_, rfl, ?_⟩
        rw [less_crisp (hc b (hum b hb)) (hc a (hum a ha))]
        simp [and_comm])
      (by rintro a _ ⟨h1, h2⟩; rw [h1] at h2; cases h2)
      (by rintro a _ b _ c _ ⟨h1, h2⟩ ⟨h3, h4⟩; exact ⟨h1, h4⟩)
      (by
        intro a _ b _ c _ h1 h2 h3 h4
        generalize g a.1 = x at *
        generalize g b.1 = y at *
        generalize g c.1 = z at *
        cases x <;> cases y <;> cases z <;> simp_all)
    refine ⟨r, by rw [e1, Res.ok_bind, e2, Res.ok_bind, e3], fun q hq => hum q (hp3.mem_iff.1 hq), ?_, ?_⟩
    · exact hs3.imp fun h ⟨h1, h2⟩ => h ⟨h2, h1⟩
    · intro q hq
      obtain ⟨y, hy, h1, h2⟩ := hcov q (hp1.mem_iff.2 hq)
      refine ⟨y, hp3.mem_iff.2 hy, h1, ?_⟩
      intro hg
      cases hy' : g y.1 with
      | true => rfl
      | false => exact absurd (.inr ⟨h1.symm, hg, hy'⟩) h2

theorem gather6_ok {P : Type} {words : List Words} {stop : P → Bool} {sb : Nat → Bool} : ∀ r : List (Nat × P), (∀ q ∈ r, q.1 < words.length) →
    (∀ q ∈ r, stop q.2 = sb q.1) → (r.Pairwise fun a b => sb a.1 = true → sb b.1 = true) →
    gather6 words stop r = .ok ((r.filter fun q => !sb q.1).flatMap fun q => words.getD q.1 []) := by
  intro r
  induction r with
  | nil => intro _ _ _; rfl
  | cons p r ih =>
    intro hl hs hp
    rw [gather6, hs p (by simp)]
    cases h : sb p.1 with
    | true =>
      rw [if_pos rfl, List.filter_cons_of_neg (by simp [h]), List.filter_eq_nil_iff.2]
      · rfl
      · intro a ha
        rw [List.rel_of_pairwise_cons hp ha h]
        simp
    | false =>
      have hl' := hl p (by simp)
      rw [if_neg (by simp), rd_of_lt hl', Res.ok_bind, ih (fun q hq => hl q (by simp [hq])) (fun q hq => hs q (by simp [hq])) hp.of_cons,
        Res.ok_bind, List.filter_cons_of_pos (by simp [h]), List.flatMap_cons, List.getD_eq_getElem?_getD, List.getElem?_eq_getElem hl']
      rfl

/-! ## The groups of a word -/

/-- The keys of the map increase. -/
def KeysUp (m : List (List Nat × List Nat)) : Prop := m.Pairwise fun a b => wordLt a.1 b.1 = true

theorem mapAddWord_mem (w : List Nat) (n : Nat) : ∀ m, KeysUp m → KeysUp (mapAddWord w n m) ∧
    (∀ k, k ∈ (mapAddWord w n m).map Prod.fst ↔ k = w ∨ k ∈ m.map Prod.fst) ∧
    ∀ k l, (k, l) ∈ mapAddWord w n m ↔ (k ≠ w ∧ (k, l) ∈ m) ∨
      (k = w ∧ ((∃ l0, l = l0 ++ [n] ∧ (w, l0) ∈ m) ∨ (l = [n] ∧ w ∉ m.map Prod.fst))) := by
  intro m
  induction m with
  | nil =>
    intro _
    refine ⟨by simp [mapAddWord, KeysUp], by simp [mapAddWord], ?_⟩
    intro k l
    simp [mapAddWord]
  | cons p m ih =>
    intro hm
    obtain ⟨k0, l0⟩ := p
    have hm' : (∀ b ∈ m, wordLt k0 b.1 = true) ∧ KeysUp m := List.pairwise_cons.1 hm
    obtain ⟨i1, i2, i3⟩ := ih hm'.2
    rw [mapAddWord]
    by_cases h1 : wordLt w k0 = true
    · rw [if_pos h1]
      have hne : ∀ l, (w, l) ∉ (k0, l0) :: m := by
        intro l h
        rcases List.mem_cons.1 h with h | h
        · cases h; rw [wordLt_irrefl] at h1; cases h1
        · have := wordLt_trans _ _ _ h1 (hm'.1 _ h)
          rw [wordLt_irrefl] at this; cases this
      refine ⟨?_, by simp, ?_⟩
      · refine List.pairwise_cons.2 ⟨?_, hm⟩
        intro b hb
        rcases List.mem_cons.1 hb with rfl | hb
        · exact h1
        · exact wordLt_trans _ _ _ h1 (hm'.1 b hb)
      · intro k l
        have hnk : w ∉ ((k0, l0) :: m).map Prod.fst := by
          intro h
          obtain ⟨x, hx, rfl⟩ := List.mem_map.1 h
          exact hne x.2 hx
        constructor
        · intro h
          rcases List.mem_cons.1 h with h | h
          · cases h; exact .inr ⟨rfl, .inr ⟨rfl, hnk⟩⟩
          · exact .inl ⟨fun e => hne l (e ▸ h), h⟩
        · rintro (⟨_, h⟩ | ⟨rfl, ⟨l1, rfl, h⟩ | ⟨rfl, _⟩⟩)
          · exact List.mem_cons_of_mem _ h
          · exact absurd h (hne l1)
          · simp
    · rw [if_neg h1]
      by_cases h2 : w = k0
      · subst h2
        rw [if_pos rfl]
        have hne : ∀ l, (w, l) ∉ m := by
          intro l h
          have := hm'.1 _ h
          rw [wordLt_irrefl] at this; cases this
        refine ⟨List.pairwise_cons.2 ⟨hm'.1, hm'.2⟩, by simp, ?_⟩
        intro k l
        constructor
        · intro h
          rcases List.mem_cons.1 h with h | h
          · cases h; exact .inr ⟨rfl, .inl ⟨l0, rfl, by simp⟩⟩
          · exact .inl ⟨fun e => hne l (e ▸ h), List.mem_cons_of_mem _ h⟩
        · rintro (⟨h0, h⟩ | ⟨rfl, ⟨l1, rfl, h⟩ | ⟨rfl, h⟩⟩)
          · rcases List.mem_cons.1 h with h | h
            · cases h; exact absurd rfl h0
            · exact List.mem_cons_of_mem _ h
          · rcases List.mem_cons.1 h with h | h
            · cases h; simp
            · exact absurd h (hne l1)
          · simp at h
      · rw [if_neg h2]
        refine ⟨?_, ?_, ?_⟩
        · refine List.pairwise_cons.2 ⟨?_, i1⟩
          intro b hb
          have : b.1 ∈ (mapAddWord w n m).map Prod.fst := List.mem_map.2 ⟨b, hb, rfl⟩
          rcases (i2 b.1).1 this with e | hb'
          · rw [e]
            cases h3 : wordLt k0 w with
            | true => rfl
            | false => exact absurd (wordLt_total _ _ (by simpa using h1) h3) h2
          · obtain ⟨x, hx, ex⟩ := List.mem_map.1 hb'
            rw [← ex]
            exact hm'.1 x hx
        · intro k
          rw [List.map_cons, List.mem_cons, i2 k, List.map_cons, List.mem_cons]
          exact ⟨fun h => by rcases h with h | h | h <;> simp [h], fun h => by rcases h with h | h | h <;> simp [h]⟩
        · intro k l
          rw [List.mem_cons, i3 k l, List.mem_cons, List.map_cons, List.mem_cons]
          constructor
          · rintro (h | ⟨h, h'⟩ | ⟨rfl, ⟨l1, rfl, h⟩ | ⟨rfl, h⟩⟩)
            · cases h; exact .inl ⟨Ne.symm h2, .inl rfl⟩
            · exact .inl ⟨h, .inr h'⟩
            · exact .inr ⟨rfl, .inl ⟨l1, rfl, List.mem_cons_of_mem _ h⟩⟩
            · exact .inr ⟨rfl, .inr ⟨rfl, by simp only [not_or]; exact ⟨h2, h⟩⟩⟩
          · rintro (⟨h, h' | h'⟩ | ⟨rfl, ⟨l1, rfl, h⟩ | ⟨rfl, h⟩⟩)
            · exact .inl h'
            · exact .inr (.inl ⟨h, h'⟩)
            · rcases List.mem_cons.1 h with h | h
              · cases h; exact absurd rfl h2
              · exact .inr (.inr ⟨rfl, .inl ⟨l1, rfl, h⟩⟩)
            · exact .inr (.inr ⟨rfl, .inr ⟨rfl, fun h' => h (.inr h')⟩⟩)

/-- The map of the first words of the first `n` glyphs. -/
structure WordMap (fw : Nat → List Nat) (n : Nat) (m : List (List Nat × List Nat)) : Prop where
  keys : KeysUp m
  has : ∀ j, j < n → fw j ∈ m.map Prod.fst
  group : ∀ k l, (k, l) ∈ m → l.Nodup ∧ ∀ j, j ∈ l ↔ j < n ∧ fw j = k

theorem collectFirst_map (fw : Nat → List Nat) : ∀ (gs : List (Option Words)) (n : Nat) (m : List (List Nat × List Nat)),
    (∀ (j : Nat) (g : Option Words), gs[j]? = some g → ∃ v, g = some (fw (n + j) :: v)) → WordMap fw n m →
    ∃ m', collectFirst gs n m = .ok m' ∧ WordMap fw (n + gs.length) m' := by
  intro gs
  induction gs with
  | nil => intro n m _ h; exact ⟨m, rfl, h⟩
  | cons g gs ih =>
    intro n m hg h
    obtain ⟨v, rfl⟩ := hg 0 g rfl
    rw [collectFirst]
    obtain ⟨a1, a2, a3⟩ := mapAddWord_mem (fw n) n m h.keys
    obtain ⟨m', e, hm'⟩ := ih (n + 1) (mapAddWord (fw n) n m) (by
        intro j g hj
        obtain ⟨v, e⟩ := hg (j + 1) g (by simpa using hj)
        exact ⟨v, by rw [e]; congr 3; omega⟩) (by
        refine ⟨a1, ?_, ?_⟩
        · intro j hj
          rw [a2]
          by_cases e : j = n
          · exact .inl (by rw [e])
          · exact .inr (h.has j (by omega))
        · intro k l hkl
          rcases (a3 k l).1 hkl with ⟨h1, h2⟩ | ⟨rfl, ⟨l0, rfl, h2⟩ | ⟨rfl, h2⟩⟩
          · obtain ⟨b1, b2⟩ := h.group k l h2
            refine ⟨b1, fun j => ?_⟩
            rw [b2 j]
            constructor
            · rintro ⟨c1, c2⟩; exact ⟨by omega, c2⟩
            · rintro ⟨c1, c2⟩
              refine ⟨?_, c2⟩
              rcases Nat.lt_succ_iff_lt_or_eq.1 c1 with c | c
              · exact c
              · exact absurd (by rw [← c2, c]) h1
          · obtain ⟨b1, b2⟩ := h.group _ l0 h2
            refine ⟨?_, fun j => ?_⟩
            · rw [List.nodup_append]
              refine ⟨b1, by simp, ?_⟩
              intro x hx y hy e
              have := ((b2 x).1 hx).1
              have := List.mem_singleton.1 hy
              omega
            · rw [List.mem_append, b2 j, List.mem_singleton]
              constructor
              · rintro (⟨c1, c2⟩ | rfl)
                · exact ⟨by omega, c2⟩
                · exact ⟨by omega, rfl⟩
              · rintro ⟨c1, c2⟩
                rcases Nat.lt_succ_iff_lt_or_eq.1 c1 with c | c
                · exact .inl ⟨c, c2⟩
                · exact .inr c
          · refine ⟨by simp, fun j => ?_⟩
            rw [List.mem_singleton]
            constructor
            · rintro rfl; exact ⟨by omega, rfl⟩
            · rintro ⟨c1, c2⟩
              rcases Nat.lt_succ_iff_lt_or_eq.1 c1 with c | c
              · exact absurd (c2 ▸ h.has j c) h2
              · exact c)
    exact ⟨m', e, by rw [List.length_cons, show n + (gs.length + 1) = n + 1 + gs.length from by omega]; exact hm'⟩

/-- Entry `g` holds the other glyphs with the first word of glyph `g`. -/
theorem makeByWord_map {ws : List Words} (h : [] ∉ ws) : ∃ t, makeByWord (ws.map some) = .ok t ∧ t.length = ws.length ∧
    ∀ g j, g < ws.length → (j ∈ t.getD g [] ↔ j < ws.length ∧ j ≠ g ∧ (ws.getD j []).head? = (ws.getD g []).head?) := by
  let fw : Nat → List Nat := fun j => ((ws.getD j []).head?).getD []
  have hfw : ∀ j, j < ws.length → (ws.getD j []).head? = some (fw j) := by
    intro j hj
    have : ws.getD j [] = ws[j] := by rw [List.getD_eq_getElem?_getD, List.getElem?_eq_getElem hj]; rfl
    show _ = some (((ws.getD j []).head?).getD [])
    rw [this]
    cases e : ws[j] with
    | nil => exact absurd (e ▸ List.getElem_mem hj) h
    | cons a l => rfl
  obtain ⟨m, e, hm⟩ := collectFirst_map fw (ws.map some) 0 [] (by
      intro j g hj
      rw [List.getElem?_map, Option.map_eq_some_iff] at hj
      obtain ⟨v, hv, rfl⟩ := hj
      have hlt := (List.getElem?_eq_some_iff.1 hv).1
      have := hfw j hlt
      rw [List.getD_eq_getElem?_getD, hv, Option.getD_some] at this
      cases v with
      | nil => cases this
      | cons a v =>
        rw [List.head?_cons, Option.some.injEq] at this
        exact ⟨v, by rw [Nat.zero_add, this]⟩)
    ⟨.nil, by simp, by simp⟩
  rw [Nat.zero_add, List.length_map] at hm
  have hfold : m.foldl (fun t p => fillGroup p.2 t) (List.replicate ws.length []) =
      (m.map fun p => (0, p.2)).foldl (fun t p => fillGroup p.2 t) (List.replicate ws.length []) := by
    rw [List.foldl_map]
  obtain ⟨g1, _, g3⟩ := foldl_groups ws.length (m.map fun p => (0, p.2)) (List.replicate ws.length [])
    (by simp)
    (by
      rw [List.pairwise_map]
      refine hm.keys.imp_of_mem ?_
      intro a b ha hb hab j hja hjb
      have h1 := ((hm.group a.1 a.2 ha).2 j).1 hja
      have h2 := ((hm.group b.1 b.2 hb).2 j).1 hjb
      rw [← h1.2, ← h2.2, wordLt_irrefl] at hab
      cases hab)
    (by
      intro p hp
      obtain ⟨q, hq, rfl⟩ := List.mem_map.1 hp
      obtain ⟨b1, b2⟩ := hm.group q.1 q.2 hq
      exact ⟨b1, fun j hj => ((b2 j).1 hj).1⟩)
    (by
      intro p hp j hj
      obtain ⟨q, hq, rfl⟩ := List.mem_map.1 hp
      have := (((hm.group q.1 q.2 hq).2 j).1 hj).1
      rw [List.getElem?_replicate, if_pos this])
  refine ⟨_, by rw [makeByWord, e, Res.ok_bind]; rfl, ?_, ?_⟩
  · rw [List.length_map, hfold]; exact g1
  · intro g j hg
    obtain ⟨q, hq, eq⟩ := List.mem_map.1 (hm.has g hg)
    obtain ⟨b1, b2⟩ := hm.group q.1 q.2 hq
    have hgq : g ∈ q.2 := (b2 g).2 ⟨hg, eq.symm⟩
    obtain ⟨r, h4, h5, _⟩ := g3 (0, q.2) (List.mem_map.2 ⟨q, hq, rfl⟩) g hgq
    rw [List.length_map, hfold, List.getD_eq_getElem?_getD, h4, Option.getD_some]
    have hnd := h5.nodup_iff.2 b1
    constructor
    · intro hj
      have hjq : j ∈ q.2 := h5.mem_iff.1 (List.mem_cons_of_mem _ hj)
      obtain ⟨c1, c2⟩ := (b2 j).1 hjq
      refine ⟨c1, ?_, by rw [hfw j c1, hfw g hg, c2, eq]⟩
      rintro rfl
      exact (List.nodup_cons.1 hnd).1 hj
    · rintro ⟨c1, c2, c3⟩
      rw [hfw j c1, hfw g hg, Option.some.injEq] at c3
      have : j ∈ q.2 := (b2 j).2 ⟨c1, c3.trans eq.symm⟩
      rcases List.mem_cons.1 (h5.mem_iff.2 this) with h' | h'
      · exact absurd h' c2
      · exact h'

end Ppocr

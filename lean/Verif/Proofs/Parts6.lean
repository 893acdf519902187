import Verif.Spec.Parts6
import Verif.Props.Beside
import Verif.Props.Line6
import Verif.Proofs.Alike6

/-! # `extract_text6`: a line and its parts (lemmas for C103) -/

namespace Ppocr.Props
open Ppocr Spec

/-! ### Helper lemmas: lists along a line -/

theorem letterWords_append (R : Image → Letter6) : ∀ (ps qs seen : List Image),
    letterWords R seen (ps ++ qs) = letterWords R seen ps ++ letterWords R (ps.reverse ++ seen) qs
  | [], qs, seen => by simp [letterWords]
  | p :: ps, qs, seen => by
    rw [List.cons_append, letterWords, letterWords, letterWords_append R ps qs, List.cons_append, List.reverse_cons,
      List.append_assoc, List.singleton_append]

theorem letterWords_known (R : Image → Letter6) (before : List Image) : ∀ (qs seen seen' : List Image),
    (∀ q, q ∈ seen' ↔ q ∈ seen ∨ q ∈ before) → (∀ q ∈ qs, q ∈ before → (R q).cached = (R q).amb) →
    letterWords R seen' qs = letterWords R seen qs
  | [], _, _, _, _ => rfl
  | q :: qs, seen, seen', h, hk => by
    have ih := letterWords_known R before qs (q :: seen) (q :: seen')
      (by intro x; simp only [List.mem_cons, h, or_assoc]) (fun x hx => hk x (by simp [hx]))
    rw [letterWords, letterWords, ih]
    congr 1
    by_cases h1 : q ∈ seen
    · rw [if_pos h1, if_pos ((h q).2 (.inl h1))]
    · rw [if_neg h1]
      by_cases h2 : q ∈ before
      · rw [if_pos ((h q).2 (.inr h2)), hk q (by simp) h2]
      · rw [if_neg (by rw [h]; simp [h1, h2])]

/-- Where a line read from column `x` on ends. -/
def lineEnd : Nat → List Box → Nat
  | x, [] => x
  | _, b :: bs => lineEnd (b.x + b.w) bs

theorem withGaps_append : ∀ (x : Nat) (bs ds : List Box) (cs es : List Words), bs.length = cs.length →
    withGaps x (bs ++ ds) (cs ++ es) = withGaps x bs cs ++ withGaps (lineEnd x bs) ds es
  | _, [], _, [], _, _ => by simp [withGaps, lineEnd]
  | _, [], _, _ :: _, _, h => by cases h
  | _, _ :: _, _, [], _, h => by cases h
  | x, b :: bs, ds, c :: cs, es, h => by
    simp only [List.cons_append, withGaps, lineEnd, List.append_assoc]
    rw [withGaps_append _ bs ds cs es (by simpa using h)]

theorem withGaps_moved (k top : Nat) : ∀ (x : Nat) (bs : List Box) (cs : List Words),
    withGaps (x + k) (bs.map (movedBox k top)) cs = withGaps x bs cs
  | _, [], _ => by simp [withGaps]
  | _, _ :: _, [] => by simp [withGaps]
  | x, b :: bs, c :: cs => by
    have ih := withGaps_moved k top (b.x + b.w) bs cs
    rw [List.map_cons, withGaps, withGaps,
      show (movedBox k top b).x + (movedBox k top b).w = b.x + b.w + k by show b.x + k + b.w = _; omega, ih]
    congr 1
    by_cases h : x + 4 < b.x
    · rw [if_pos h, if_pos (by show x + k + 4 < b.x + k; omega)]
    · rw [if_neg h, if_neg (by show ¬ x + k + 4 < b.x + k; omega)]

theorem lineEnd_endBefore : ∀ (bs ds : List Box) (x : Nat), bs ≠ [] ∨ x = 0 → lineEnd x bs = endBefore (bs ++ ds) bs.length
  | [], _, x, h => by
    rcases h with h | h
    · exact absurd rfl h
    · exact h
  | [b], ds, x, _ => by simp [lineEnd, endBefore]
  | b :: c :: bs, ds, x, _ => by
    have := lineEnd_endBefore (c :: bs) ds (b.x + b.w) (.inl (by simp))
    rw [lineEnd, this]
    simp [endBefore]

/-! ### Helper lemmas: the text -/

theorem saying_stop (ws : List (List Nat)) (l : List (List Nat)) (B : List (List (List Nat))) (hl : isStop l = true) :
    ∀ (n : Nat) (A : List (List (List Nat))), A.length ≤ n → saying ws (A ++ l :: B) = saying ws A ++ (sepText l ++ saying ws B)
  | _, [], _ => by
    rw [List.nil_append, show saying ws [] = [] by rw [saying], List.nil_append, saying, dif_pos hl]
  | 0, _ :: _, h => by simp at h
  | n + 1, a :: A, h => by
    by_cases ha : isStop a = true
    · rw [List.cons_append, saying, dif_pos ha, saying, dif_pos ha, saying_stop ws l B hl n A (by simpa using h), List.append_assoc]
    · have ht : ∀ C : List (List (List Nat)), (a :: (A ++ l :: B)).takeWhile (!isStop ·) = (a :: A).takeWhile (!isStop ·) ∧
          (a :: (A ++ l :: B)).dropWhile (!isStop ·) = (a :: A).dropWhile (!isStop ·) ++ l :: B := by
        intro _
        rw [← List.cons_append]
        generalize a :: A = D
        induction D with
        | nil => rw [List.nil_append, List.takeWhile_cons_of_neg (by simp [hl]), List.dropWhile_cons_of_neg (by simp [hl])]; simp
        | cons d D ih =>
          rw [List.cons_append]
          by_cases hd : isStop d = true
          · simp only [List.takeWhile_cons, List.dropWhile_cons, hd, Bool.not_true]
            exact ⟨rfl, rfl⟩
          · have hd : isStop d = false := by simpa using hd
            simp only [List.takeWhile_cons, List.dropWhile_cons, hd, Bool.not_false, if_true]
            exact ⟨by rw [ih.1], ih.2⟩
      have hlen : ((a :: A).dropWhile (!isStop ·)).length ≤ n := by
        rw [List.dropWhile_cons_of_pos (by simpa using ha)]
        have := (List.dropWhile_sublist (l := A) (!isStop ·)).length_le
        simp only [List.length_cons] at h
        omega
      rw [List.cons_append, saying, dif_neg ha, (ht []).1, (ht []).2, saying_stop ws l B hl n _ hlen, saying, dif_neg ha,
        List.append_assoc]

theorem encAll_stops : ∀ sep : List Nat, (∀ c ∈ sep, c ∈ stops) → encAll sep = sep
  | [], _ => rfl
  | c :: sep, h => by
    have hc : c < 0x80 := stops_small (h c (by simp))
    have e : enc c = [c] := by
      rcases enc_cases c with ⟨_, e⟩ | ⟨_, _, _⟩ | ⟨_, _, _⟩ | ⟨_, _⟩
      · exact e
      all_goals omega
    have ih := encAll_stops sep fun x hx => h x (by simp [hx])
    unfold encAll at ih ⊢
    rw [List.flatMap_cons, e, ih]
    rfl

theorem sepText_stops {l : List (List Nat)} (h : isStop l = true) : ∀ c ∈ sepText l, c ∈ stops := by
  intro c hc
  match l with
  | [] =>
    have : c = 63 := by simpa [sepText] using hc
    subst this
    decide
  | [] :: _ => cases h
  | [d] :: l =>
    have : c = d := by simpa [sepText, firstOf] using hc
    subst this
    simpa [isStop] using h
  | (_ :: _ :: _) :: _ => cases h

theorem saying_front (ws : List (List Nat)) : ∀ B : List (List (List Nat)),
    ∃ sep, (∀ c ∈ sep, c ∈ stops) ∧ saying ws B = sep ++ saying ws (B.dropWhile isStop)
  | [] => ⟨[], by simp, by simp⟩
  | b :: B => by
    by_cases hb : isStop b = true
    · obtain ⟨sep, h1, h2⟩ := saying_front ws B
      refine ⟨sepText b ++ sep, ?_, ?_⟩
      · intro c hc
        rcases List.mem_append.1 hc with hc | hc
        · exact sepText_stops hb c hc
        · exact h1 c hc
      · rw [saying, dif_pos hb, h2, List.dropWhile_cons_of_pos hb, List.append_assoc]
    · exact ⟨[], by simp, by rw [List.dropWhile_cons_of_neg hb]; rfl⟩

theorem dropWhile_stop (l : List (List Nat)) (B : List (List (List Nat))) (hl : isStop l = true) : ∀ A : List (List (List Nat)),
    (A.dropWhile isStop = [] ∧ (A ++ l :: B).dropWhile isStop = B.dropWhile isStop) ∨
    (A ++ l :: B).dropWhile isStop = A.dropWhile isStop ++ l :: B
  | [] => .inl ⟨rfl, by rw [List.nil_append, List.dropWhile_cons_of_pos hl]⟩
  | a :: A => by
    rw [List.cons_append]
    by_cases ha : isStop a = true
    · rw [List.dropWhile_cons_of_pos ha, List.dropWhile_cons_of_pos ha]
      exact dropWhile_stop l B hl A
    · right
      rw [List.dropWhile_cons_of_neg ha, List.dropWhile_cons_of_neg ha]
      rfl

/-- The text of candidates with a space between. -/
theorem text6_parts {S : StdSort} {ws : List (List Nat)} {E : List FNode} (hd : DictOf S ws E) {A B : List Words}
    (hA : ∀ l ∈ A, ∀ w ∈ l, Spelled w) (hB : ∀ l ∈ B, ∀ w ∈ l, Spelled w) :
    ∃ ta tb tc, text6 E A = .ok ta ∧ text6 E B = .ok tb ∧ text6 E (A ++ [[32]] :: B) = .ok tc ∧ TextParts ta tb tc := by
  obtain ⟨as, ga, ea⟩ := spelled_lists A hA
  obtain ⟨bs, gb, eb⟩ := spelled_lists B hB
  have hs : isStop [[32]] = true := by decide
  have gc : GoodWords (as ++ [[32]] :: bs) := by
    intro l hl w hw
    rcases List.mem_append.1 hl with hl | hl
    · exact ga l hl w hw
    · rcases List.mem_cons.1 hl with rfl | hl
      · rw [List.mem_singleton.1 hw]
        exact ⟨by decide, fun c hc => by rw [List.mem_singleton.1 hc]; decide⟩
      · exact gb l hl w hw
  have ec : (as ++ [[32]] :: bs).map (List.map encAll) = A ++ [[32]] :: B := by
    rw [List.map_append, List.map_cons, ea, eb]
    rfl
  refine ⟨_, _, _, by rw [← ea]; exact text6_ok hd as ga, by rw [← eb]; exact text6_ok hd bs gb,
    by rw [← ec]; exact text6_ok hd _ gc, ?_⟩
  rcases dropWhile_stop [[32]] bs hs as with ⟨h1, h2⟩ | h2
  · left
    rw [h1, h2]
    exact ⟨by simp [saying, encAll], rfl⟩
  · right
    obtain ⟨sep, h3, h4⟩ := saying_front ws bs
    refine ⟨sep, h3, ?_⟩
    rw [h2, saying_stop ws _ _ hs _ _ (Nat.le_refl _), h4, encAll_append, encAll_append, encAll_append, encAll_stops sep h3]
    have : encAll (sepText [[32]]) = [32] := by decide
    rw [this]
    simp only [List.append_assoc]

/-! ### Helper lemmas: the parts of a line -/

theorem CutUp.lines {a b c : Image} (h : CutUp a b c) (ha : Picture a) (hb : Picture b) (hc : LineImage c) :
    LineImage a ∧ LineImage b := by
  obtain ⟨p1, p2, p3, p4⟩ := cutUp_parts h
  have h1 := h.parts.front.high
  have h2 := h.parts.back.high
  have h3 := h.parts.wide
  have h5 := hc.size
  have h6 := Nat.mul_le_mul (show a.bounds.w ≤ c.bounds.w by omega) (show a.bounds.h ≤ c.bounds.h by omega)
  have h7 := Nat.mul_le_mul (show b.bounds.w ≤ c.bounds.w by omega) (show b.bounds.h ≤ c.bounds.h by omega)
  obtain ⟨as, bs, e1, e2, e3⟩ := C98_letters a b c h ha.wf hb.wf hc.wf ha.w hb.w
  refine ⟨⟨ha.wf, ha.w, ha.h, by omega, .inl p1, ?_⟩, ⟨hb.wf, hb.w, hb.h, by omega, .inl p2, ?_⟩⟩
  · intro ds e d hd
    rw [e1] at e
    cases e
    exact hc.letters _ e3 d (by simp [hd])
  · intro ds e d hd
    rw [e2] at e
    cases e
    exact hc.letters _ e3 ⟨a.bounds.w + d.x, d.y, d.w, d.h⟩ (List.mem_append_right _ (List.mem_map.2 ⟨d, hd, rfl⟩))

/-- What is asked of the letters: `Rd` tells what is read, `Jm` when reading divides by zero, `Kn` when a letter is
recognised. -/
structure Letters6 (F : Image → Image → Res Letter6) (Rd : Image → Letter6 → Prop) (Jm Kn : Image → Prop) : Prop where
  head : ∀ a o, Rd a o → o.cached.head? = some o.r2
  run : ∀ a r, Sized a → a.rotate90 = .ok r → (∃ o, F a r = .ok o ∧ Rd a o) ∨ (F a r = .ub ∧ Jm a)
  spelled : ∀ a o, Rd a o → ∀ w ∈ o.amb, Spelled w
  read : ∀ a o, Rd a o → o.amb ≠ [] → o.cached = o.amb
  unread : ∀ a o, Rd a o → o.amb = [] → o.cached = [[95]]
  known : ∀ a o, Rd a o → Kn a → o.amb ≠ []

theorem spelled_amb {F : Image → Image → Res Letter6} {Rd : Image → Letter6 → Prop} {Jm Kn : Image → Prop} (L : Letters6 F Rd Jm Kn)
    {R : Image → Letter6} {as seen : List Image} (hR : ∀ a ∈ as, Rd a (R a)) (x : Nat) (bs : List Box) :
    ∀ l ∈ withGaps x bs (letterWords R seen as), ∀ w ∈ l, Spelled w := by
  have h95 : Spelled [95] := ⟨[95], by decide, fun x hx => by rw [List.mem_singleton.1 hx]; decide, by decide⟩
  intro c hc w hwc
  rcases withGaps_mem _ _ _ _ hc with rfl | hc
  · rw [List.mem_singleton.1 hwc]
    exact ⟨[32], by decide, fun x hx => by rw [List.mem_singleton.1 hx]; decide, by decide⟩
  · obtain ⟨a, ha, rfl | rfl⟩ := letterWords_mem R as seen c hc
    · exact L.spelled a _ (hR a ha) w hwc
    · by_cases h0 : (R a).amb = []
      · rw [L.unread a _ (hR a ha) h0] at hwc
        rw [List.mem_singleton.1 hwc]
        exact h95
      · rw [L.read a _ (hR a ha) h0] at hwc
        exact L.spelled a _ (hR a ha) w hwc

theorem text6_total {S : StdSort} {ws : List (List Nat)} {E : List FNode} (hd : DictOf S ws E) {A : List Words}
    (hA : ∀ l ∈ A, ∀ w ∈ l, Spelled w) : ∃ t, text6 E A = .ok t := by
  obtain ⟨as, ga, ea⟩ := spelled_lists A hA
  exact ⟨_, by rw [← ea]; exact text6_ok hd as ga⟩

/-- The readings of a line, one for each picture. -/
theorem line6_reading {F : Image → Image → Res Letter6} {Rd : Image → Letter6 → Prop} {Jm Kn : Image → Prop} (L : Letters6 F Rd Jm Kn)
    {i : Image} (hi : LineImage i) {bs : List Box} {as : List Image} (e : segment i = .ok bs) (hp : Pictures i bs as) :
    ((∀ a ∈ as, Rd a (reading6 F a) ∧ ∃ r, a.rotate90 = .ok r ∧ F a r ≠ .ub) ∧
      ∃ l : Line6, lineLoop6 F i (i.bounds.w + 1) 0 ⟨[], [], [], [], []⟩ = .ok l ∧ l.amb = withGaps 0 bs (letterWords (reading6 F) [] as) ∧
        l.res1 = eachSpaced (fun a => (reading6 F a).r1) as ∧ l.res2 = eachSpaced (fun a => (reading6 F a).r2) as) ∨
    ((∃ a ∈ as, ∃ r, a.rotate90 = .ok r ∧ F a r = .ub) ∧
      lineLoop6 F i (i.bounds.w + 1) 0 ⟨[], [], [], [], []⟩ = .ub) := by
  obtain ⟨bs', as', e', hp', _, h⟩ := line6_run (F := F) (Rd := fun a o => Rd a o ∧ ∃ r, a.rotate90 = .ok r ∧ F a r = .ok o)
    (Jm := fun a => ∃ r, a.rotate90 = .ok r ∧ F a r = .ub) hi (fun a o h => L.head a o h.1) (by
      intro a r ha hr
      rcases L.run a r ha hr with ⟨o, ho, h⟩ | ⟨ho, h⟩
      · exact .inl ⟨o, ho, h, r, hr, ho⟩
      · exact .inr ⟨ho, r, hr, ho⟩)
  rw [e] at e'
  cases e'
  have := pictures_unique hp hp'
  subst this
  rcases h with ⟨R, l, hR, h1, h2, h3, h4⟩ | h
  · left
    have hRR : ∀ a ∈ as, R a = reading6 F a := by
      intro a ha
      obtain ⟨_, r, hr, ho⟩ := hR a ha
      unfold reading6
      rw [hr, Res.ok_bind, ho]
    have hw : ∀ (xs seen : List Image), (∀ a ∈ xs, R a = reading6 F a) → letterWords R seen xs = letterWords (reading6 F) seen xs := by
      intro xs
      induction xs with
      | nil => intro _ _; rfl
      | cons x xs ih =>
        intro seen h
        rw [letterWords, letterWords, h x (by simp), ih _ fun a ha => h a (by simp [ha])]
    have hE : ∀ g : Letter6 → List Nat, eachSpaced (fun a => g (R a)) as = eachSpaced (fun a => g (reading6 F a)) as := by
      intro g
      unfold eachSpaced
      rw [List.flatMap_def, List.flatMap_def]
      congr 1
      apply List.map_congr_left
      intro a ha
      simp only [hRR a ha]
    refine ⟨?_, l, h1, by rw [h2, hw as [] hRR], by rw [h3, hE Letter6.r1], by rw [h4, hE Letter6.r2]⟩
    intro a ha
    obtain ⟨k, r, hr, ho⟩ := hR a ha
    refine ⟨by rw [← hRR a ha]; exact k, r, hr, by rw [ho]; simp⟩
  · exact .inr h

/-- A line and its parts. -/
theorem extract6_cut {F : Image → Image → Res Letter6} {Rd : Image → Letter6 → Prop} {Jm Kn : Image → Prop} (L : Letters6 F Rd Jm Kn)
    {S : StdSort} {ws : List (List Nat)} {E : List FNode} (hd : DictOf S ws E) {lum : Nat} {ea eb ec : FileEnv} {a b c : Image}
    (h : CutFiles lum ea eb ec a b c) (hc : LineImage c) :
    (∃ ra rb rc, extract6 F E a = .ok ra ∧ extract6 F E b = .ok rb ∧ extract6 F E c = .ok rc ∧
      rc.res1 = ra.res1 ++ rb.res1 ∧ rc.res2 = ra.res2 ++ rb.res2 ∧
      ∀ as cs ps qs bs, segment a = .ok as → segment b = .ok bs → segment c = .ok cs → Gap cs as.length → Pictures a as ps →
        Pictures b bs qs → (∀ p ∈ ps, p ∈ qs → Kn p) → TextParts ra.res3 rb.res3 rc.res3) ∨
    (extract6 F E c = .ub ∧ (extract6 F E a = .ub ∨ extract6 F E b = .ub)) := by
  obtain ⟨ha, hb⟩ := h.cut.lines (loadImage_picture h.first) (loadImage_picture h.second) hc
  obtain ⟨as, bs, ps, qs, e1, hp, e2, hq, e3, hpq⟩ := cutFiles_pictures h
  have ka := line6_reading L ha e1 hp
  have kb := line6_reading L hb e2 hq
  have kc := line6_reading L hc e3 hpq
  have ub : ∀ {i : Image}, lineLoop6 F i (i.bounds.w + 1) 0 ⟨[], [], [], [], []⟩ = .ub → extract6 F E i = .ub := by
    intro i hi
    unfold extract6
    rw [hi]
    rfl
  rcases kc with ⟨hR, lc, c1, c2, c3, c4⟩ | ⟨⟨x, hx, r, hr, hF⟩, c1⟩
  · left
    have no : ∀ x ∈ ps ++ qs, ¬ ∃ r, x.rotate90 = .ok r ∧ F x r = .ub := by
      rintro x hx ⟨r, hr, hF⟩
      obtain ⟨_, r', hr', hF'⟩ := hR x hx
      rw [hr] at hr'
      cases hr'
      exact hF' hF
    rcases ka with ⟨hRa, la, a1, a2, a3, a4⟩ | ⟨⟨x, hx, hr⟩, _⟩
    · rcases kb with ⟨hRb, lb, b1, b2, b3, b4⟩ | ⟨⟨x, hx, hr⟩, _⟩
      · have sa : ∀ l ∈ la.amb, ∀ w ∈ l, Spelled w := by
          rw [a2]; exact spelled_amb L (fun x hx => (hRa x hx).1) _ _
        have sb : ∀ l ∈ lb.amb, ∀ w ∈ l, Spelled w := by
          rw [b2]; exact spelled_amb L (fun x hx => (hRb x hx).1) _ _
        have sc : ∀ l ∈ lc.amb, ∀ w ∈ l, Spelled w := by
          rw [c2]; exact spelled_amb L (fun x hx => (hR x hx).1) _ _
        obtain ⟨ta, hta⟩ := text6_total hd sa
        obtain ⟨tb, htb⟩ := text6_total hd sb
        obtain ⟨tc, htc⟩ := text6_total hd sc
        refine ⟨⟨la.res1, la.res2, ta⟩, ⟨lb.res1, lb.res2, tb⟩, ⟨lc.res1, lc.res2, tc⟩, ?_, ?_, ?_, ?_, ?_, ?_⟩
        · unfold extract6; rw [a1, Res.ok_bind, hta, Res.ok_bind]; rfl
        · unfold extract6; rw [b1, Res.ok_bind, htb, Res.ok_bind]; rfl
        · unfold extract6; rw [c1, Res.ok_bind, htc, Res.ok_bind]; rfl
        · show lc.res1 = la.res1 ++ lb.res1
          rw [a3, b3, c3]; simp [eachSpaced]
        · show lc.res2 = la.res2 ++ lb.res2
          rw [a4, b4, c4]; simp [eachSpaced]
        · intro as' cs' ps' qs' bs' f1 f2 f3 hg hp' hq' hk
          rw [e1] at f1; cases f1
          rw [e2] at f2; cases f2
          rw [e3] at f3; cases f3
          have := pictures_unique hp hp'; subst this
          have := pictures_unique hq hq'; subst this
          show TextParts ta tb tc
          have hlen : as.length = (letterWords (reading6 F) [] ps).length := by
            rw [letterWords_length, pictures_length hp]
          have hkn : letterWords (reading6 F) (ps.reverse ++ []) qs = letterWords (reading6 F) [] qs := by
            apply letterWords_known _ ps
            · intro q; simp
            · intro q hq hqp
              have hr := (hRb q hq).1
              exact L.read q _ hr (L.known q _ hr (hk q hqp hq))
          rw [letterWords_append, withGaps_append _ _ _ _ _ hlen, hkn] at c2
          cases bs with
          | nil =>
            obtain ⟨d, hd', _⟩ := hg
            simp at hd'
          | cons d ds =>
            cases qs with
            | nil => exact hq.elim
            | cons q qs =>
              obtain ⟨d', hd', hlt⟩ := hg
              rw [List.getElem?_append_right (Nat.le_refl _), Nat.sub_self, List.map_cons, List.getElem?_cons_zero] at hd'
              cases hd'
              rw [← lineEnd_endBefore as _ 0 (.inr rfl)] at hlt
              obtain ⟨w, ws', hw⟩ : ∃ w ws', letterWords (reading6 F) [] (q :: qs) = w :: ws' := ⟨_, _, rfl⟩
              rw [hw] at b2 c2
              rw [List.map_cons, withGaps, if_pos hlt,
                show (movedBox a.bounds.w 0 d).x + (movedBox a.bounds.w 0 d).w = d.x + d.w + a.bounds.w by
                  show d.x + _ + d.w = _; omega, withGaps_moved, ← a2, List.singleton_append] at c2
              rw [withGaps] at b2
              have sB : ∀ l ∈ w :: withGaps (d.x + d.w) ds ws', ∀ v ∈ l, Spelled v := by
                intro l hl
                exact sb l (by rw [b2]; exact List.mem_append_right _ hl)
              obtain ⟨ta', tb', tc', g1, g2, g3, g4⟩ := text6_parts hd sa sB
              rw [hta] at g1; cases g1
              rw [← c2, htc] at g3; cases g3
              have : tb = tb' := by
                by_cases h4 : 0 + 4 < d.x
                · rw [if_pos h4, List.singleton_append] at b2
                  rw [b2, text6_front, g2] at htb
                  cases htb
                  rfl
                · rw [if_neg h4, List.nil_append] at b2
                  rw [b2, g2] at htb
                  cases htb
                  rfl
              rw [this]
              exact g4
      · exact absurd hr (no x (by simp [hx]))
    · exact absurd hr (no x (by simp [hx]))
  · right
    refine ⟨ub c1, ?_⟩
    rcases List.mem_append.1 hx with hx | hx
    · left
      rcases ka with ⟨hRa, _⟩ | ⟨_, a1⟩
      · obtain ⟨_, r', hr', hF'⟩ := hRa x hx
        rw [hr] at hr'; cases hr'
        exact absurd hF hF'
      · exact ub a1
    · right
      rcases kb with ⟨hRb, _⟩ | ⟨_, b1⟩
      · obtain ⟨_, r', hr', hF'⟩ := hRb x hx
        rw [hr] at hr'; cases hr'
        exact absurd hF hF'
      · exact ub b1

end Ppocr.Props

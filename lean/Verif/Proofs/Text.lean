import Verif.Proofs.AnyDict
import Verif.Model.Text
import Verif.Spec.Text
import Verif.Props.Spell
import Verif.Proofs.Glyphs

/-! # Lemmas for C44 -/

namespace Ppocr
open Spec

/-- The memory holds the word `W i` at the position `i`, followed by a NUL; the word is valid. -/
structure Known (g : RGlyphs) (W : Nat → List Nat) (i : Nat) : Prop where
  ne : W i ≠ []
  scalar : ∀ c ∈ W i, Scalar c
  small : (encAll (W i)).length < W32
  holds : Holds g.buf i (encAll (W i))
  term : Terminated g.buf i (encAll (W i))

/-- The candidates of a letter as strings. -/
def wordsAt (W : Nat → List Nat) (l : List View) : List (List Nat) := l.map fun v => W v.word

theorem known_mem {g : RGlyphs} {W : Nat → List Nat} {i : Nat} (h : Known g W i) :
    ∃ t, wordMem g.buf i = mem (W i, t) := by
  have e : ∃ rest, g.buf.drop (4 * i + 4) = (encAll (W i)).map some ++ some 0 :: rest := by
    refine ⟨(g.buf.drop (4 * i + 4)).drop ((encAll (W i)).length + 1), ?_⟩
    apply List.ext_getElem?
    intro k
    by_cases h1 : k < (encAll (W i)).length
    · rw [List.getElem?_append_left (by simpa using h1), List.getElem?_map, List.getElem?_drop,
        List.getElem?_eq_getElem h1, h.holds.2 k _ (List.getElem?_eq_getElem h1)]
      rfl
    · rw [List.getElem?_append_right (by simpa using h1), List.length_map, List.getElem?_drop]
      obtain ⟨j, hj⟩ : ∃ j, k = (encAll (W i)).length + j := ⟨k - (encAll (W i)).length, by omega⟩
      subst hj
      rw [Nat.add_sub_cancel_left]
      cases j with
      | zero => exact h.term
      | succ j =>
        rw [List.getElem?_cons_succ, List.getElem?_drop, List.getElem?_drop]
        congr 1
        omega
  obtain ⟨rest, e⟩ := e
  refine ⟨(rest.takeWhile Option.isSome).filterMap id, ?_⟩
  unfold wordMem mem
  rw [e, List.takeWhile_append_of_pos (by simp), List.takeWhile_cons_of_pos (by rfl), List.filterMap_append,
    List.filterMap_cons]
  simp

theorem isPunct_eq (c : Nat) : isPunct c = decide (c ∈ marks) := by
  have : marks = [33, 35, 36, 37, 38, 39, 40, 41, 42, 43, 44, 45, 46, 58, 59, 60, 61, 62, 63, 91, 93, 123, 125] := by
    decide
  rw [this]
  rfl

theorem marks_small {c : Nat} (h : c ∈ marks) : c < 0x80 := by
  have : ∀ c ∈ marks, c < 0x80 := by decide
  exact this c h

theorem searchFn_ok {g : RGlyphs} {W : Nat → List Nat} {l : List View} (h : ∀ v ∈ l, Known g W v.word) :
    searchFn g l = .ok (isSep (wordsAt W l)) := by
  cases l with
  | nil => rfl
  | cons v l =>
    have k := h v (by simp)
    rw [searchFn, wordSize_of k.holds k.small, Res.ok_bind]
    simp only [wordsAt, List.map_cons, isSep]
    match hw : W v.word with
    | [] => exact absurd hw k.ne
    | [c] =>
      have e1 : encAll [c] = enc c := by simp [encAll]
      rw [e1]
      rcases enc_cases c with ⟨hc, he⟩ | hlong
      · rw [he]
        simp only [List.length_singleton, ↓reduceIte]
        have hb := k.holds.2 0 c (by rw [hw, e1, he]; rfl)
        rw [Nat.add_zero] at hb
        rw [rdByte_of hb, Res.ok_bind, isPunct_eq]
        rfl
      · have hlen : (enc c).length ≠ 1 := by
          rcases hlong with ⟨_, _, he⟩ | ⟨_, _, he⟩ | ⟨_, he⟩ <;> rw [he] <;> simp
        have hn : c ∉ marks := by
          intro hm
          have := marks_small hm
          rcases hlong with ⟨_, _, _⟩ | ⟨_, _, _⟩ | ⟨_, _⟩ <;> omega
        rw [if_neg hlen]
        simp [hn]
    | c :: d :: r =>
      have : (encAll (c :: d :: r)).length ≠ 1 := by
        have := encAll_length (c :: d :: r)
        simp only [List.length_cons] at this
        omega
      rw [if_neg this]
      rfl

/-- All candidates are known words. -/
def AllKnown (g : RGlyphs) (W : Nat → List Nat) (ls : List (List View)) : Prop :=
  ∀ l ∈ ls, ∀ v ∈ l, Known g W v.word

theorem findFirst_ok {g : RGlyphs} {W : Nat → List Nat} (want : Bool) : ∀ {ls : List (List View)}, AllKnown g W ls →
    findFirst g want ls = .ok (ls.takeWhile fun l => isSep (wordsAt W l) != want).length
  | [], _ => rfl
  | l :: ls, h => by
    rw [findFirst, searchFn_ok (h l (by simp)), Res.ok_bind]
    by_cases hb : isSep (wordsAt W l) = want
    · rw [if_pos hb, List.takeWhile_cons_of_neg (by simpa using hb)]
      rfl
    · rw [if_neg hb, List.takeWhile_cons_of_pos (by simpa using hb), findFirst_ok want fun x hx => h x (by simp [hx])]
      rfl

theorem appendFirsts_ok {g : RGlyphs} {W : Nat → List Nat} : ∀ {ls : List (List View)} (out : List Nat),
    AllKnown g W ls → appendFirsts g ls out = .ok (out ++ encAll ((ls.map (wordsAt W)).flatMap firstOf))
  | [], out, _ => by simp [appendFirsts, encAll]
  | [] :: ls, out, h => by
    rw [appendFirsts, appendFirsts_ok out fun x hx => h x (by simp [hx])]
    simp [wordsAt, firstOf]
  | (v :: l) :: ls, out, h => by
    have k := h (v :: l) (by simp) v (by simp)
    rw [appendFirsts, getWord_of k.holds k.small, Res.ok_bind,
      appendFirsts_ok _ fun x hx => h x (by simp [hx])]
    simp [wordsAt, firstOf, encAll_append]

/-- The number of letters without candidates. -/
def blanks (ls : List (List (List Nat))) : Nat := ls.countP (· = [])

theorem blanks_append (a b : List (List (List Nat))) : blanks (a ++ b) = blanks a + blanks b := by
  simp [blanks]

theorem encAll_63 : encAll [63] = [63] := by decide

theorem sepLoop_ok {g : RGlyphs} {W : Nat → List Nat} : ∀ {ls : List (List View)} (out : List Nat) (cnt : Nat),
    AllKnown g W ls → cnt < W32 →
    sepLoop g ls out cnt = .ok
      (out ++ encAll (((ls.map (wordsAt W)).takeWhile isSep).flatMap sepText),
       (cnt + blanks ((ls.map (wordsAt W)).takeWhile isSep)) % W32,
       ((ls.map (wordsAt W)).takeWhile isSep).length)
  | [], out, cnt, _, hc => by simp [sepLoop, encAll, blanks, Nat.mod_eq_of_lt hc]
  | [] :: ls, out, cnt, h, hc => by
    rw [sepLoop, sepLoop_ok _ _ (fun x hx => h x (by simp [hx])) (uadd_lt _ _), Res.ok_bind, List.map_cons,
      List.takeWhile_cons_of_pos (by rfl)]
    simp only [Res.pure_eq, Res.ok.injEq, Prod.mk.injEq, List.length_cons, and_true]
    constructor
    · rw [List.flatMap_cons, encAll_append, List.append_assoc]
      congr 1
    · unfold uadd blanks
      rw [Nat.mod_add_mod, List.countP_cons]
      simp only [wordsAt, List.map_nil, decide_true, if_true]
      congr 1
      omega
  | (v :: l) :: ls, out, cnt, h, hc => by
    have k := h (v :: l) (by simp) v (by simp)
    rw [sepLoop, searchFn_ok (h (v :: l) (by simp)), Res.ok_bind, List.map_cons]
    by_cases hs : isSep (wordsAt W (v :: l)) = true
    · rw [if_pos hs, getWord_of k.holds k.small, Res.ok_bind,
        sepLoop_ok _ _ (fun x hx => h x (by simp [hx])) hc, Res.ok_bind, List.takeWhile_cons_of_pos hs]
      simp only [Res.pure_eq, Res.ok.injEq, Prod.mk.injEq, List.length_cons, and_true]
      constructor
      · rw [List.flatMap_cons, encAll_append, List.append_assoc]
        congr 1
      · unfold blanks
        rw [List.countP_cons]
        simp [wordsAt]
    · rw [if_neg hs, List.takeWhile_cons_of_neg hs]
      simp [encAll, blanks, Nat.mod_eq_of_lt hc]

/-! ## Repeated candidates -/

theorem findSome?_step {β : Type} (W : Nat → List Nat) (f : List Nat → Option β) : ∀ l : List View,
    ((stepWords l).map W).findSome? f = (wordsAt W l).findSome? f
  | [] => rfl
  | [v] => rfl
  | v :: u :: l => by
    have ih := findSome?_step W f (u :: l)
    rw [stepWords]
    by_cases e : v.word = u.word
    · rw [if_pos e, ih]
      simp only [wordsAt, List.map_cons, List.findSome?_cons, e]
      cases f (W u.word) <;> rfl
    · rw [if_neg e, List.map_cons, List.findSome?_cons, ih]
      simp only [wordsAt, List.map_cons, List.findSome?_cons]

theorem find?_flatMap' {α β : Type} (f : α → List β) (p : β → Bool) : ∀ l : List α,
    (l.flatMap f).find? p = l.findSome? fun a => (f a).find? p
  | [] => rfl
  | a :: l => by
    rw [List.flatMap_cons, List.find?_append, List.findSome?_cons, find?_flatMap' f p l]
    cases (f a).find? p <;> rfl

theorem choices_step (W : Nat → List Nat) : ∀ (run : List (List View)) (p : List (List Nat) → Bool),
    (choices (run.map fun l => (stepWords l).map W)).find? p = (choices (run.map (wordsAt W))).find? p
  | [], _ => rfl
  | l :: run, p => by
    rw [List.map_cons, List.map_cons, choices, choices, find?_flatMap', find?_flatMap', findSome?_step]
    congr 1
    funext c
    rw [List.find?_map, List.find?_map, choices_step W run]

/-- A dictionary. -/
structure DictOf (S : StdSort) (ws : List (List Nat)) (E : List FNode) : Prop where
  ne : ∀ w ∈ ws, w ≠ []
  scalar : ∀ w ∈ ws, ∀ c ∈ w, Scalar c
  small : (ws.map List.length).sum < W32
  made : dictOf S (ws.map encAll) = .ok E

theorem DictOf.searches {S : StdSort} {ws : List (List Nat)} {E : List FNode} (hd : DictOf S ws E) (A : List (List Nat)) (n : Nat) :
    SearchesOn E ws A n := by
  intro table out hne _ hg
  obtain ⟨E', e1, e2⟩ := Props.C43_search_partial S ws table out hd.ne hd.scalar hd.small hne fun cands hc p hp => (hg cands hc p hp).1
  rw [hd.made, Res.ok.injEq] at e1
  subst e1
  rw [e2]
  unfold Props.promised
  cases preferred spellCut ws (table.map (List.map Prod.fst)) <;> rfl

/-- The candidates of the letters are among `A`. -/
def Among (W : Nat → List Nat) (A : List (List Nat)) (amb : List (List View)) : Prop := ∀ l ∈ amb, ∀ v ∈ l, W v.word ∈ A

theorem disambiguous_run {ws : List (List Nat)} {E : List FNode} {g : RGlyphs} {W : Nat → List Nat} {A : List (List Nat)} {n : Nat}
    (hd : SearchesOn E ws A n) {run : List (List View)} (hne : run ≠ []) (hn : run.length ≤ n) (hA : Among W A run)
    (h : AllKnown g W run) (out : List Nat) :
    disambiguous E (run.map fun l => (stepWords l).map (wordMem g.buf)) out =
      .ok (match preferred spellCut ws (run.map (wordsAt W)) with
        | none => (false, out)
        | some ch => (true, out ++ encAll (spellCut ch))) := by
  have hst : ∀ l : List View, ∀ i ∈ stepWords l, ∃ v ∈ l, v.word = i := by
    intro l
    fun_induction stepWords l with
    | case1 => simp
    | case2 => simp
    | case3 v u l e ih =>
      intro i hi
      obtain ⟨x, hx, e⟩ := ih i hi
      exact ⟨x, by simp [hx], e⟩
    | case4 v u l e ih =>
      intro i hi
      rcases List.mem_cons.1 hi with rfl | hi
      · exact ⟨v, by simp, rfl⟩
      · obtain ⟨x, hx, e⟩ := ih i hi
        exact ⟨x, List.mem_cons_of_mem _ hx, e⟩
  let tl : Nat → List Nat := fun i => (wordMem g.buf i).drop ((encAll (W i)).length + 1)
  have hmem : ∀ l ∈ run, ∀ i ∈ stepWords l, wordMem g.buf i = mem (W i, tl i) := by
    intro l hl i hi
    obtain ⟨v, hv, rfl⟩ := hst l i hi
    obtain ⟨t, ht⟩ := known_mem (h l hl v hv)
    rw [ht]
    show mem (W v.word, t) = mem (W v.word, (wordMem g.buf v.word).drop _)
    rw [ht]
    congr 2
    simp [mem, List.drop_append]
  have htab : (run.map fun l => (stepWords l).map (wordMem g.buf)) =
      ((run.map fun l => (stepWords l).map fun i => (W i, tl i)).map (List.map mem)) := by
    rw [List.map_map]
    apply List.map_congr_left
    intro l hl
    simp only [Function.comp, List.map_map]
    apply List.map_congr_left
    intro i hi
    exact hmem l hl i hi
  rw [htab, hd (run.map fun l => (stepWords l).map fun i => (W i, tl i)) out (by simpa using hne) (by simpa using hn) (by
      intro cands hc p hp
      obtain ⟨l, hl, rfl⟩ := List.mem_map.1 hc
      obtain ⟨i, hi, rfl⟩ := List.mem_map.1 hp
      obtain ⟨v, hv, rfl⟩ := hst l i hi
      exact ⟨⟨(h l hl v hv).ne, (h l hl v hv).scalar⟩, hA l hl v hv⟩)]
  unfold preferred
  have : ((run.map fun l => (stepWords l).map fun i => (W i, tl i)).map (List.map Prod.fst)) =
      run.map fun l => (stepWords l).map W := by
    rw [List.map_map]
    apply List.map_congr_left
    intro l _
    simp [Function.comp]
  rw [this, choices_step]
  cases List.find? (fun ch => decide (spellCut ch ∈ ws)) (choices (List.map (wordsAt W) run)) <;> rfl

/-! ## The text of a segment -/

theorem segText_seps (ws : List (List Nat)) : ∀ (a b : List (List (List Nat))), (∀ l ∈ a, isSep l = true) →
    segText ws (a ++ b) = a.flatMap sepText ++ segText ws b
  | [], b, _ => by simp
  | l :: a, b, h => by
    rw [List.cons_append, segText, dif_pos (h l (by simp)), segText_seps ws a b fun x hx => h x (by simp [hx])]
    simp

/-- The text of letters of a word, nothing when there are none. -/
def runText' (ws : List (List Nat)) (run : List (List (List Nat))) : List Nat :=
  if run = [] then [] else runText ws run

/-- A run and the separators behind it. -/
theorem segText_step (ws : List (List Nat)) (s : List (List (List Nat))) :
    segText ws s = runText' ws (s.takeWhile (!isSep ·)) ++
      (((s.dropWhile (!isSep ·)).takeWhile isSep).flatMap sepText ++
        segText ws ((s.dropWhile (!isSep ·)).dropWhile isSep)) := by
  rw [← segText_seps ws _ _ (fun l hl => by
    have := List.all_takeWhile (p := isSep) (l := s.dropWhile (!isSep ·))
    exact List.all_eq_true.1 this l hl), List.takeWhile_append_dropWhile]
  cases s with
  | nil => simp [runText', segText]
  | cons l ls =>
    by_cases h : isSep l = true
    · rw [List.takeWhile_cons_of_neg (by simpa using h), List.dropWhile_cons_of_neg (by simpa using h)]
      simp [runText']
    · rw [segText, dif_neg h]
      congr 1
      rw [runText', if_neg (by rw [List.takeWhile_cons_of_pos (by simpa using h)]; simp)]

/-- The text from a position on, `ends` being the ends of the segments from there on. -/
def joinText (ws : List (List Nat)) (L : List (List (List Nat))) : Nat → List Nat → List Nat
  | _, [] => []
  | b, [e] => segText ws ((L.take e).drop b)
  | b, e :: f :: es => segText ws ((L.take e).drop b) ++ 32 :: joinText ws L e (f :: es)

theorem joinText_cons (ws : List (List Nat)) (L : List (List (List Nat))) (b e : Nat) (es : List Nat) :
    joinText ws L b (e :: es) = segText ws ((L.take e).drop b) ++ (if es = [] then [] else 32 :: joinText ws L e es) := by
  cases es <;> simp [joinText]

theorem joinText_eq (ws : List (List Nat)) (L : List (List (List Nat))) : ∀ (ends : List Nat) (b : Nat),
    joinText ws L b ends = [32].intercalate ((segments L b ends).map (segText ws))
  | [], _ => rfl
  | [e], b => by simp [joinText, segments, List.intercalate]
  | e :: f :: es, b => by
    rw [joinText, joinText_eq ws L (f :: es) e]
    simp [segments, List.intercalate]

theorem encAll_32 : encAll [32] = [32] := by decide

theorem runStep_ok {ws : List (List Nat)} {E : List FNode} {g : RGlyphs} {W : Nat → List Nat} {A : List (List Nat)} {n : Nat}
    (hd : SearchesOn E ws A n) {run : List (List View)} (hn : run.length ≤ n) (hA : Among W A run) (h : AllKnown g W run)
    (out : List Nat) :
    runStep g E run out = .ok (out ++ encAll (runText' ws (run.map (wordsAt W)))) := by
  unfold runStep
  by_cases hne : run = []
  · subst hne
    rw [List.map_nil, Props.C43_empty E [] out (.inl rfl), Res.ok_bind]
    simp [appendFirsts, runText', encAll]
  · have hne' : run.map (wordsAt W) ≠ [] := by simpa using hne
    rw [disambiguous_run hd hne hn hA h, Res.ok_bind]
    simp only [runText', if_neg hne', runText]
    cases preferred spellCut ws (run.map (wordsAt W)) with
    | none =>
      simp only [Bool.false_eq_true, if_false]
      exact appendFirsts_ok out h
    | some ch => rfl

theorem take_takeWhile {α : Type} (p : α → Bool) (l : List α) : l.take (l.takeWhile p).length = l.takeWhile p := by
  conv => lhs; arg 2; rw [← List.takeWhile_append_dropWhile (p := p) (l := l)]
  exact List.take_left

theorem drop_takeWhile {α : Type} (p : α → Bool) (l : List α) : l.drop (l.takeWhile p).length = l.dropWhile p := by
  conv => lhs; arg 2; rw [← List.takeWhile_append_dropWhile (p := p) (l := l)]
  exact List.drop_left

theorem blanks_run (l : List (List (List Nat))) : blanks (l.takeWhile (!isSep ·)) = 0 := by
  unfold blanks
  rw [List.countP_eq_zero]
  intro x hx
  have := List.all_eq_true.1 (List.all_takeWhile (p := (!isSep ·)) (l := l)) x hx
  rintro h
  simp only [decide_eq_true_eq] at h
  subst h
  simp [isSep] at this

theorem textLoop_ok {ws : List (List Nat)} {E : List FNode} {g : RGlyphs} {W : Nat → List Nat} {A : List (List Nat)}
    {amb : List (List View)} (hd : SearchesOn E ws A amb.length) (hA : Among W A amb) (h : AllKnown g W amb) :
    ∀ (fuel first : Nat) (spaces out : List Nat) (cnt : Nat), amb.length - first < fuel →
      (first :: spaces).Pairwise (· < ·) → (first :: spaces).getLast? = some amb.length → cnt < W32 →
      textLoop g E amb fuel first spaces out cnt =
        .ok (out ++ encAll (joinText ws (amb.map (wordsAt W)) first spaces),
          (cnt + blanks ((amb.map (wordsAt W)).drop first)) % W32)
  | 0, _, _, _, _, hf, _, _, _ => by omega
  | fuel + 1, first, [], out, cnt, hf, hp, hlast, hc => by
    simp only [List.getLast?_singleton, Option.some.injEq] at hlast
    rw [textLoop, if_pos hlast, hlast, List.drop_of_length_le (by simp)]
    simp [joinText, encAll, blanks, Nat.mod_eq_of_lt hc]
  | fuel + 1, first, e :: rest, out, cnt, hf, hp, hlast, hc => by
    have hmem : amb.length ∈ e :: rest := by
      rw [List.getLast?_cons_cons] at hlast
      exact List.mem_of_getLast? hlast
    have hp' := List.pairwise_cons.1 hp
    have hlt : first < amb.length := hp'.1 _ hmem
    have hfe : first < e := hp'.1 e (by simp)
    have hen : e ≤ amb.length := by
      rcases List.mem_cons.1 hmem with hh | hh
      · omega
      · exact Nat.le_of_lt ((List.pairwise_cons.1 hp'.2).1 _ hh)
    obtain ⟨s, hs⟩ : ∃ s, s = (amb.take e).drop first := ⟨_, rfl⟩
    have hslen : s.length = e - first := by rw [hs, List.length_drop, List.length_take]; omega
    have hss : s = (amb.drop first).take (e - first) := by
      rw [hs, List.take_drop]; congr 2; omega
    have hsub : ∀ x ∈ s, x ∈ amb := fun x hx => List.mem_of_mem_take (List.mem_of_mem_drop (hs ▸ hx))
    have hks : AllKnown g W s := fun l hl => h l (hsub l hl)
    obtain ⟨T, hT⟩ : ∃ T, T = s.map (wordsAt W) := ⟨_, rfl⟩
    have hTL : T = ((amb.map (wordsAt W)).take e).drop first := by
      rw [hT, hs, List.map_drop, List.map_take]
    -- the run
    obtain ⟨n, hn⟩ : ∃ n, n = (s.takeWhile fun l => isSep (wordsAt W l) != true).length := ⟨_, rfl⟩
    have hrunT : T.takeWhile (!isSep ·) = (s.take n).map (wordsAt W) := by
      rw [hn, take_takeWhile, hT, List.takeWhile_map]
      congr 2
      funext l
      simp
    have hnT : (T.takeWhile (!isSep ·)).length = n := by
      rw [hrunT, List.length_map, List.length_take, hn]
      have := (List.takeWhile_sublist (l := s) fun l => isSep (wordsAt W l) != true).length_le
      omega
    have hdropT : T.dropWhile (!isSep ·) = (s.drop n).map (wordsAt W) := by
      rw [← drop_takeWhile, hnT, hT, List.map_drop]
    have hnl : n ≤ s.length := by
      rw [hn]; exact (List.takeWhile_sublist _).length_le
    have hrun : (amb.drop first).take n = s.take n := by
      rw [hss, List.take_take]; congr 1; omega
    have hdrop : (amb.take e).drop (first + n) = s.drop n := by
      rw [hs, List.drop_drop]
    -- the separators
    obtain ⟨m, hm⟩ : ∃ m, m = (((s.drop n).map (wordsAt W)).takeWhile isSep).length := ⟨_, rfl⟩
    have hml : m ≤ s.length - n := by
      rw [hm]
      have := (List.takeWhile_sublist (l := (s.drop n).map (wordsAt W)) isSep).length_le
      rwa [List.length_map, List.length_drop] at this
    have hrestT : (T.dropWhile (!isSep ·)).dropWhile isSep = T.drop (n + m) := by
      rw [← drop_takeWhile isSep, hdropT, ← hm, hT, ← List.map_drop, List.drop_drop, List.map_drop]
    have hpos : 0 < n + m := by
      cases hs' : s with
      | nil => rw [hs'] at hslen; simp at hslen; omega
      | cons l ls =>
        by_cases hb : isSep (wordsAt W l) = true
        · have : n = 0 := by rw [hn, hs', List.takeWhile_cons_of_neg (by simpa using hb)]; rfl
          rw [hm, this, hs', List.drop_zero, List.map_cons, List.takeWhile_cons_of_pos hb]
          simp
        · rw [hn, hs', List.takeWhile_cons_of_pos (by simpa using hb)]
          simp only [List.length_cons]; omega
    have hseg : segText ws T = runText' ws ((s.take n).map (wordsAt W)) ++
        ((((s.drop n).map (wordsAt W)).takeWhile isSep).flatMap sepText ++ segText ws (T.drop (n + m))) := by
      rw [segText_step, hrunT, hrestT, hdropT]
    have hcnt : blanks T = blanks (((s.drop n).map (wordsAt W)).takeWhile isSep) + blanks (T.drop (n + m)) := by
      conv => lhs; rw [← List.takeWhile_append_dropWhile (p := (!isSep ·)) (l := T)]
      rw [blanks_append, blanks_run, Nat.zero_add]
      conv => lhs; rw [← List.takeWhile_append_dropWhile (p := isSep) (l := T.dropWhile (!isSep ·))]
      rw [blanks_append, hrestT, hdropT]
    rw [textLoop, if_neg (by omega)]
    simp only []
    rw [if_neg (by omega), decide_eq_true hfe, assert_true, Res.ok_bind, ← hs, findFirst_ok true hks, Res.ok_bind,
      ← hn, hrun, runStep_ok hd (by rw [List.length_take]; omega) (fun l hl => hA l (hsub l (List.mem_of_mem_take hl)))
        (fun l hl => hks l (List.mem_of_mem_take hl)), Res.ok_bind, hdrop,
      sepLoop_ok _ _ (fun l hl => hks l (List.mem_of_mem_drop hl)) hc, Res.ok_bind]
    simp only [← hm]
    have hsplit : blanks ((amb.map (wordsAt W)).drop first) = blanks T + blanks ((amb.map (wordsAt W)).drop e) := by
      rw [← blanks_append]
      congr 1
      rw [hTL]
      have : ((amb.map (wordsAt W)).take e).drop first ++ (amb.map (wordsAt W)).drop e =
          ((amb.map (wordsAt W)).take e ++ (amb.map (wordsAt W)).drop e).drop first := by
        rw [List.drop_append_of_le_length (by rw [List.length_take, List.length_map]; omega)]
      rw [this, List.take_append_drop]
    have hcm : ∀ x : Nat, x % W32 < W32 := fun x => Nat.mod_lt _ W32_pos
    by_cases hend : first + n + m = e
    · have hT0 : T.drop (n + m) = [] := by
        apply List.drop_of_length_le
        rw [hT, List.length_map, hslen]; omega
      rw [hT0] at hseg hcnt
      by_cases hel : e = amb.length
      · rw [if_neg (fun hh => hh.2 hel)]
        have hr : rest = [] := by
          cases rest with
          | nil => rfl
          | cons f fs =>
            exfalso
            have : amb.length ∈ f :: fs := by
              rw [List.getLast?_cons_cons, List.getLast?_cons_cons] at hlast
              exact List.mem_of_getLast? hlast
            have := (List.pairwise_cons.1 hp'.2).1 _ this
            omega
        subst hr
        obtain ⟨fuel', rfl⟩ : ∃ k, fuel = k + 1 := ⟨fuel - 1, by omega⟩
        have hz : (amb.map (wordsAt W)).drop e = [] := List.drop_of_length_le (by rw [List.length_map]; omega)
        rw [textLoop, if_pos (by omega), joinText, ← hTL, hseg, hsplit, hcnt, hz]
        simp [segText, encAll_append, blanks]
      · rw [if_pos ⟨hend, hel⟩]
        have hrne : rest ≠ [] := by
          rintro rfl
          simp only [List.getLast?_cons_cons, List.getLast?_singleton, Option.some.injEq] at hlast
          exact hel hlast
        rw [hend, textLoop_ok hd hA h fuel e rest _ _ (by omega) hp'.2 (by
          rw [List.getLast?_cons_cons] at hlast; exact hlast) (hcm _), joinText_cons, if_neg hrne, ← hTL, hseg,
          hsplit, hcnt]
        simp only [Res.ok.injEq, Prod.mk.injEq]
        refine ⟨?_, ?_⟩
        · simp [segText, encAll_append, encAll_cons, show enc 32 = [32] from by decide]
        · rw [Nat.mod_add_mod]
          congr 1
          simp [blanks]
          omega
    · rw [if_neg (fun hh => hend hh.1)]
      have hp2 : ((first + n + m) :: e :: rest).Pairwise (· < ·) := by
        rw [List.pairwise_cons]
        refine ⟨?_, hp'.2⟩
        intro x hx
        rcases List.mem_cons.1 hx with rfl | hx
        · omega
        · have := (List.pairwise_cons.1 hp'.2).1 x hx
          omega
      have hTd : T.drop (n + m) = ((amb.map (wordsAt W)).take e).drop (first + n + m) := by
        rw [hTL, List.drop_drop]; congr 1; omega
      rw [textLoop_ok hd hA h fuel (first + n + m) (e :: rest) _ _ (by omega) hp2 (by
          rw [List.getLast?_cons_cons] at hlast ⊢; exact hlast) (hcm _), joinText_cons, joinText_cons, ← hTL, hseg,
        hsplit, hcnt, ← hTd]
      simp only [Res.ok.injEq, Prod.mk.injEq]
      refine ⟨?_, ?_⟩
      · simp [encAll_append]
      · rw [Nat.mod_add_mod]
        have : blanks ((amb.map (wordsAt W)).drop (first + n + m)) =
            blanks (T.drop (n + m)) + blanks ((amb.map (wordsAt W)).drop e) := by
          rw [← blanks_append, hTd]
          congr 1
          have : ((amb.map (wordsAt W)).take e).drop (first + n + m) ++ (amb.map (wordsAt W)).drop e =
              ((amb.map (wordsAt W)).take e ++ (amb.map (wordsAt W)).drop e).drop (first + n + m) := by
            rw [List.drop_append_of_le_length (by rw [List.length_take, List.length_map]; omega)]
          rw [this, List.take_append_drop]
        rw [this]
        congr 1
        omega

end Ppocr

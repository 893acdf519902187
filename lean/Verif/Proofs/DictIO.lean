import Verif.Model.DictIO
import Verif.Proofs.Stream
import Verif.Proofs.Disambiguouser

/-! # Dictionary files -/

namespace Ppocr
open Spec

/-! ## Extractions consume -/

theorem dropWhile_length_le {p : Nat → Bool} : ∀ l : List Nat, (l.dropWhile p).length ≤ l.length
  | [] => by simp
  | c :: t => by
    have := dropWhile_length_le (p := p) t
    rw [List.dropWhile_cons]
    split
    · simp only [List.length_cons]; omega
    · simp

theorem sentry_le (s : IS) (b : Bool) : (s.sentry b).1.rest.length ≤ s.rest.length := by
  unfold IS.sentry
  split
  · simp
  · split
    · simp only []
      split
      · simp
      · exact dropWhile_length_le _
    · simp

theorem sentry_ws (s : IS) (b : Bool) : (s.sentry b).1.ws = s.ws := by
  unfold IS.sentry
  split
  · rfl
  · split
    · simp only []
      split <;> rfl
    · rfl

theorem sentry_false {s : IS} {b : Bool} (h : (s.sentry b).2 = false) : (s.sentry b).1.fail = true := by
  unfold IS.sentry at h ⊢
  split
  · rfl
  · rename_i h1
    rw [if_neg h1] at h
    split
    · rename_i h2
      rw [if_pos h2] at h
      simp only [] at h ⊢
      split
      · rfl
      · rename_i h3
        rw [if_neg h3] at h
        simp at h
    · rename_i h2
      rw [if_neg h2] at h
      simp at h

theorem parseSign_le (l : List Nat) : (parseSign l).2.length ≤ l.length := by
  cases l with
  | nil => simp [parseSign]
  | cons c t =>
    simp only [parseSign]
    split
    · simp
    · split <;> simp

theorem uint_le (m : Nat) (s : IS) (o : Nat) : (s.uint m o).2.rest.length ≤ s.rest.length := by
  have h := sentry_le s false
  unfold IS.uint
  rcases e : s.sentry false with ⟨s', b⟩
  rw [e] at h
  cases b with
  | false => exact h
  | true =>
    simp only []
    have h1 := parseSign_le s'.rest
    have h2 := dropWhile_length_le (p := isDec) (parseSign s'.rest).2
    split
    · simp only [] at h ⊢; omega
    · split <;> (simp only [] at h ⊢; omega)

theorem uint_ws (m : Nat) (s : IS) (o : Nat) : (s.uint m o).2.ws = s.ws := by
  have h := sentry_ws s false
  unfold IS.uint
  rcases e : s.sentry false with ⟨s', b⟩
  rw [e] at h
  cases b with
  | false => exact h
  | true =>
    simp only []
    split
    · exact h
    · split <;> exact h

theorem bool_le (s : IS) (o : Bool) : (s.bool o).2.rest.length ≤ s.rest.length := by
  have h := sentry_le s false
  unfold IS.bool
  rcases e : s.sentry false with ⟨s', b⟩
  rw [e] at h
  cases b with
  | false => exact h
  | true =>
    simp only []
    have h1 := parseSign_le s'.rest
    have h2 := dropWhile_length_le (p := isDec) (parseSign s'.rest).2
    split
    · simp only [] at h ⊢; omega
    · split
      · simp only [] at h ⊢; omega
      · split <;> (simp only [] at h ⊢; omega)

theorem char_lt {s : IS} {o : Nat} (hf : (s.char o).2.fail = false) :
    (s.char o).2.rest.length < s.rest.length := by
  have h := sentry_le s false
  have h0 := @sentry_false s false
  unfold IS.char at hf ⊢
  rcases e : s.sentry false with ⟨s', b⟩
  rw [e] at h h0 hf
  cases b with
  | false =>
    have := h0 rfl
    simp only [] at hf this
    rw [this] at hf
    simp at hf
  | true =>
    simp only [] at hf h ⊢
    cases er : s'.rest with
    | nil => rw [er] at hf; simp at hf
    | cons c r =>
      rw [er] at h
      simp only [List.length_cons] at h ⊢
      omega

theorem char_le (s : IS) (o : Nat) : (s.char o).2.rest.length ≤ s.rest.length := by
  have h := sentry_le s false
  unfold IS.char
  rcases e : s.sentry false with ⟨s', b⟩
  rw [e] at h
  cases b with
  | false => exact h
  | true =>
    simp only [] at h ⊢
    cases er : s'.rest with
    | nil => simp
    | cons c r =>
      rw [er] at h
      simp only [List.length_cons] at h ⊢
      omega

theorem nodeRead_lt {s : IS} (hf : (nodeRead s).2.fail = false) :
    (nodeRead s).2.rest.length < s.rest.length := by
  unfold nodeRead at hf ⊢
  simp only [] at hf ⊢
  refine Nat.lt_of_lt_of_le (char_lt hf) ?_
  refine Nat.le_trans (bool_le _ _) ?_
  refine Nat.le_trans (char_le _ _) ?_
  refine Nat.le_trans (uint_le _ _ _) ?_
  refine Nat.le_trans (char_le _ _) ?_
  refine Nat.le_trans (uint_le _ _ _) ?_
  refine Nat.le_trans (char_le _ _) ?_
  exact uint_le _ _ _

/-- The loop ends on every input; more fuel changes nothing. -/
theorem dictLoop_total : ∀ (fuel : Nat) (s : IS) (acc : List FNode), s.rest.length < fuel →
    ∃ r, ∀ fuel', fuel ≤ fuel' → dictLoop fuel' s acc = .ok r
  | 0, _, _, h => by omega
  | fuel + 1, s, acc, h => by
    by_cases hf : (nodeRead s).2.fail = true
    · refine ⟨(.nodes acc, (nodeRead s).2), ?_⟩
      intro fuel' hl
      obtain ⟨f, rfl⟩ : ∃ f, fuel' = f + 1 := ⟨fuel' - 1, by omega⟩
      unfold dictLoop
      simp only []
      rw [if_pos hf]
    · by_cases hb : (nodeRead s).1.bad = true
      · refine ⟨(.threw, (nodeRead s).2), ?_⟩
        intro fuel' hl
        obtain ⟨f, rfl⟩ : ∃ f, fuel' = f + 1 := ⟨fuel' - 1, by omega⟩
        unfold dictLoop
        simp only []
        rw [if_neg hf, if_pos hb]
      · have := nodeRead_lt (by simpa using hf)
        obtain ⟨r, hr⟩ := dictLoop_total fuel (nodeRead s).2 (acc ++ [(nodeRead s).1.node]) (by omega)
        refine ⟨r, ?_⟩
        intro fuel' hl
        obtain ⟨f, rfl⟩ : ∃ f, fuel' = f + 1 := ⟨fuel' - 1, by omega⟩
        unfold dictLoop
        simp only []
        rw [if_neg hf, if_neg hb]
        exact hr f (by omega)

/-! ## The round trip -/

theorem nodeRead_write {f : FNode} (hx : f.x < W32) (hp : f.pos < W32) (hc : f.count < W32) (g : List Nat) :
    nodeRead ⟨nodeWrite f ++ g, false, false, false⟩ =
      (⟨f, 32, 32, 32, 10⟩, ⟨g, false, false, false⟩) := by
  have h32 : ∀ (l : List Nat) (c : Nat) (t : List Nat), 32 :: l = c :: t → isDec c = false := by
    intro l c t h
    rw [List.cons.injEq] at h
    rw [← h.1]; rfl
  have h10 : ∀ (l : List Nat) (c : Nat) (t : List Nat), 10 :: l = c :: t → isDec c = false := by
    intro l c t h
    rw [List.cons.injEq] at h
    rw [← h.1]; rfl
  have e : nodeWrite f ++ g = [] ++ (showNat f.x ++ 32 :: ([] ++ (showNat f.pos ++ 32 :: ([] ++ (showNat f.count ++
      32 :: ([] ++ (showBool f.term ++ 10 :: g))))))) := by
    simp [nodeWrite]
  unfold nodeRead
  rw [e, uint_show (by omega) (by simp) (by simp) (h32 _)]
  simp only [List.isEmpty_cons, char_cons]
  rw [uint_show (by omega) (by simp) (by simp) (h32 _)]
  simp only [List.isEmpty_cons, char_cons]
  rw [uint_show (by omega) (by simp) (by simp) (h32 _)]
  simp only [List.isEmpty_cons, char_cons]
  rw [bool_show (by simp) (by simp) (h10 _)]
  simp only [List.isEmpty_cons, char_cons]

/-- The numbers of a node fit in their C++ types. -/
def FNode.fits (f : FNode) : Prop := f.x < W32 ∧ f.pos < W32 ∧ f.count < W32

theorem dictLoop_write {g : List Nat} : ∀ (E acc : List FNode) (fuel : Nat), (∀ f ∈ E, f.fits) →
    dictLoop (E.length + fuel) ⟨dictWrite E ++ g, false, false, false⟩ acc =
      dictLoop fuel ⟨g, false, false, false⟩ (acc ++ E)
  | [], acc, fuel, _ => by simp [dictWrite]
  | f :: E, acc, fuel, h => by
    obtain ⟨h1, h2, h3⟩ := h f (by simp)
    have e : dictWrite (f :: E) ++ g = nodeWrite f ++ (dictWrite E ++ g) := by simp [dictWrite]
    rw [e, List.length_cons, show E.length + 1 + fuel = (E.length + fuel) + 1 by omega]
    rw [dictLoop, nodeRead_write h1 h2 h3]
    simp only [Bool.false_eq_true, if_false]
    rw [if_neg (by simp [NodeVars.bad]), dictLoop_write E _ fuel fun f' hf' => h f' (by simp [hf'])]
    simp

theorem showNat_pos (n : Nat) : 0 < (showNat n).length := List.length_pos_iff.2 (showNat_ne n)

theorem dictWrite_length (E : List FNode) : E.length ≤ (dictWrite E).length := by
  induction E with
  | nil => simp
  | cons f E ih =>
    have : dictWrite (f :: E) = nodeWrite f ++ dictWrite E := by simp [dictWrite]
    rw [this, List.length_append, List.length_cons]
    have : 1 ≤ (nodeWrite f).length := by
      have := showNat_pos f.x
      unfold nodeWrite
      rw [List.length_append]
      omega
    omega

/-- Reading a text that begins with a written dictionary. -/
theorem dictRead_append {E : List FNode} (h : ∀ f ∈ E, f.fits) (g : List Nat) (ws : Bool)
    (old : List FNode) {r : DictEnd × IS} (hr : dictLoop (g.length + 1) ⟨g, false, false, false⟩ E = .ok r) :
    dictRead ⟨dictWrite E ++ g, false, false, ws⟩ old = .ok (r.1.finish old { r.2 with ws := ws }) := by
  unfold dictRead
  simp only []
  obtain ⟨r', hr'⟩ := dictLoop_total (g.length + 1) ⟨g, false, false, false⟩ E (by simp)
  have := hr' _ (Nat.le_refl _)
  rw [hr] at this
  injection this with this
  subst this
  have hl := dictWrite_length E
  have : (dictWrite E ++ g).length + 1 = E.length + ((dictWrite E ++ g).length + 1 - E.length) := by
    simp only [List.length_append]; omega
  rw [this, dictLoop_write E [] _ h, List.nil_append,
    hr' _ (by simp only [List.length_append]; omega)]
  rfl

/-! ## Lines -/

theorem getline_line {l r old : List Nat} (hl : 10 ∉ l) (ws : Bool) :
    IS.getline ⟨l ++ 10 :: r, false, false, ws⟩ old = (l, ⟨r, false, false, ws⟩) := by
  obtain ⟨e1, e2⟩ := dropWhile_prefix (p := fun c => decide (c ≠ 10)) (a := l) (b := 10 :: r)
    (fun c hc => by
      simp only [decide_eq_true_eq]
      intro h; subst h; exact hl hc)
    (fun c t h => by
      rw [List.cons.injEq] at h
      rw [← h.1]; rfl)
  have hn : (fun x : Nat => !decide (x = 10)) = fun c => decide (c ≠ 10) := by funext x; simp
  unfold IS.getline IS.sentry IS.good
  simp [hn, e1, e2]

theorem getline_last {l old : List Nat} (hl : 10 ∉ l) (hne : l ≠ []) (ws : Bool) :
    IS.getline ⟨l, false, false, ws⟩ old = (l, ⟨[], true, false, ws⟩) := by
  obtain ⟨e1, e2⟩ := dropWhile_prefix (p := fun c => decide (c ≠ 10)) (a := l) (b := [])
    (fun c hc => by
      simp only [decide_eq_true_eq]
      intro h; subst h; exact hl hc)
    (fun c t h => by simp at h)
  rw [List.append_nil] at e1 e2
  have hn : (fun x : Nat => !decide (x = 10)) = fun c => decide (c ≠ 10) := by funext x; simp
  unfold IS.getline IS.sentry IS.good
  simp [hn, e1, e2, hne]

/-- A list of lines as a text, each ended by a newline. -/
def joinLines (ls : List (List Nat)) : List Nat := ls.flatMap (· ++ [10])

theorem linesLoop_join {g : List Nat} : ∀ (ls : List (List Nat)) (fuel : Nat) (str : List Nat), (∀ l ∈ ls, 10 ∉ l) →
    ∀ {R : List (List Nat)}, (∀ str, linesLoop fuel ⟨g, false, false, true⟩ str = .ok R) →
    linesLoop (ls.length + fuel) ⟨joinLines ls ++ g, false, false, true⟩ str = .ok (ls ++ R)
  | [], fuel, str, _, R, h => by simpa [joinLines] using h str
  | l :: ls, fuel, str, hl, R, h => by
    have e : joinLines (l :: ls) ++ g = l ++ 10 :: (joinLines ls ++ g) := by simp [joinLines]
    rw [e, List.length_cons, show ls.length + 1 + fuel = (ls.length + fuel) + 1 by omega]
    unfold linesLoop
    simp only []
    rw [getline_line (hl l (by simp))]
    simp only [Bool.false_eq_true, if_false]
    rw [linesLoop_join ls fuel l (fun x hx => hl x (by simp [hx])) h]
    rfl

theorem linesLoop_end (fuel : Nat) (eof : Bool) (str : List Nat) :
    linesLoop (fuel + 1) ⟨[], eof, false, true⟩ str = .ok [] := by
  unfold linesLoop
  cases eof <;> simp [IS.getline, IS.sentry, IS.good]

theorem joinLines_length (ls : List (List Nat)) : ls.length ≤ (joinLines ls).length := by
  induction ls with
  | nil => simp
  | cons l ls ih =>
    have : joinLines (l :: ls) = l ++ 10 :: joinLines ls := by simp [joinLines]
    rw [this]
    simp only [List.length_cons, List.length_append]
    omega

/-- The lines of a file; a last line without newline counts unless it is empty. -/
theorem fileLines_ok (ls : List (List Nat)) (last : List Nat) (hl : ∀ l ∈ ls, 10 ∉ l) (hlast : 10 ∉ last) :
    fileLines (joinLines ls ++ last) = .ok (ls ++ if last = [] then [] else [last]) := by
  unfold fileLines IS.of
  have hlen := joinLines_length ls
  have e : (joinLines ls ++ last).length + 2 =
      ls.length + (((joinLines ls ++ last).length - ls.length) + 1 + 1) := by
    simp only [List.length_append]; omega
  rw [e]
  refine linesLoop_join ls _ _ hl ?_
  intro str
  by_cases h : last = []
  · subst h
    rw [if_pos rfl]
    exact linesLoop_end _ _ _
  · rw [if_neg h]
    unfold linesLoop
    simp only []
    rw [getline_last hlast h]
    simp only [Bool.false_eq_true, if_false]
    rw [linesLoop_end]
    rfl

/-! ## The numbers of a compiled dictionary -/

/-- All the values of a trie. -/
def Trie.vals (P : Nat → Prop) : Trie → Prop
  | .nil => True
  | .node x _ k n => P x ∧ k.vals P ∧ n.vals P

theorem insertAfter_vals {P : Nat → Prop} : ∀ (fuel : Nat) (ws : List (List Nat)) (depth : Nat) {t : Trie},
    (∀ w ∈ ws, ∀ c ∈ w, P c) → insertAfter fuel ws depth = .ok t → t.vals P
  | 0, _, _, _, _, h => by simp [insertAfter] at h
  | _ + 1, [], _, _, _, h => by
    simp only [insertAfter, Res.ok.injEq] at h
    subst h
    trivial
  | fuel + 1, w :: ws, depth, t, hP, h => by
    unfold insertAfter at h
    obtain ⟨c, h1, h⟩ := Res.bind_eq_ok.1 h
    obtain ⟨k, h2, h⟩ := Res.bind_eq_ok.1 h
    obtain ⟨g, h3, h⟩ := Res.bind_eq_ok.1 h
    obtain ⟨kids, h4, h⟩ := Res.bind_eq_ok.1 h
    obtain ⟨next, h5, h⟩ := Res.bind_eq_ok.1 h
    simp only [Res.pure_eq, Res.ok.injEq] at h
    subst h
    refine ⟨hP w (by simp) c (List.mem_of_getElem? (rd_eq_ok.1 h1)), ?_, ?_⟩
    · refine insertAfter_vals fuel g (depth + 1) ?_ h4
      intro v hv
      refine hP v ?_
      have hg : ∀ x ∈ g, x ∈ (w :: ws).take k := by
        intro x hx
        unfold groupTail at h3
        split at h3
        · split at h3
          · simp at h3
          · rename_i e
            injection h3 with h3
            subst h3
            rw [e]; simp [hx]
        · injection h3 with h3
          subst h3
          exact hx
      exact List.mem_of_mem_take (hg v hv)
    · exact insertAfter_vals fuel _ depth (fun v hv => hP v (List.mem_of_mem_drop hv)) h5

theorem vals_nodes {P : Nat → Prop} : ∀ {t : Trie}, t.vals P → ∀ n ∈ t.nodes, P n.x ∧ n.kids.vals P
  | .nil, _, n, hn => by simp [Trie.nodes] at hn
  | .node x b k n, h, m, hm => by
    obtain ⟨h1, h2, h3⟩ := h
    simp only [Trie.nodes, List.mem_cons] at hm
    rcases hm with rfl | hm
    · exact ⟨h1, h2⟩
    · exact vals_nodes h3 m hm

/-- The nodes of a first level fit. -/
theorem level_fits {t : Trie} (h : t.vals (· < W32)) : ∀ f ∈ t.nodes.map FNode.ofNode, f.fits := by
  intro f hf
  obtain ⟨n, hn, rfl⟩ := List.mem_map.1 hf
  exact ⟨(vals_nodes h n hn).1, W32_pos, Nat.mod_lt _ W32_pos⟩

theorem flatLevel_fits : ∀ (ts : List Trie) (E : List FNode) (q : List Trie) (pos : Nat)
    {r : List FNode × List Trie × Nat}, (∀ t ∈ ts, t.vals (· < W32)) → (∀ t ∈ q, t.vals (· < W32)) →
    (∀ f ∈ E, f.fits) → flatLevel ts E q pos = .ok r →
    (∀ f ∈ r.1, f.fits) ∧ ∀ t ∈ r.2.1, t.vals (· < W32)
  | [], E, q, pos, r, _, hq, hE, h => by
    simp only [flatLevel, Res.ok.injEq] at h
    subst h
    exact ⟨hE, hq⟩
  | t :: ts, E, q, pos, r, ht, hq, hE, h => by
    unfold flatLevel at h
    obtain ⟨E', h1, h⟩ := Res.bind_eq_ok.1 h
    unfold setPos at h1
    obtain ⟨f, h2, h1⟩ := Res.bind_eq_ok.1 h1
    simp only [Res.pure_eq, Res.ok.injEq] at h1
    subst h1
    refine flatLevel_fits ts _ _ _ (fun u hu => ht u (by simp [hu])) ?_ ?_ h
    · intro u hu
      rcases List.mem_append.1 hu with hu | hu
      · exact hq u hu
      · obtain ⟨n, hn, rfl⟩ := List.mem_map.1 hu
        exact (vals_nodes (ht t (by simp)) n hn).2
    · intro u hu
      rcases List.mem_append.1 hu with hu | hu
      · rcases List.mem_or_eq_of_mem_set hu with hu | rfl
        · exact hE u hu
        · have := hE f (List.mem_of_getElem? (rd_eq_ok.1 h2))
          exact ⟨this.1, Nat.mod_lt _ W32_pos, this.2.2⟩
      · exact level_fits (ht t (by simp)) u hu

theorem flatLoop_fits : ∀ (fuel : Nat) (ts : List Trie) (E : List FNode) (pos : Nat) {r : List FNode},
    (∀ t ∈ ts, t.vals (· < W32)) → (∀ f ∈ E, f.fits) → flatLoop fuel ts E pos = .ok r → ∀ f ∈ r, f.fits
  | 0, _, _, _, _, _, _, h => by simp [flatLoop] at h
  | _ + 1, [], E, _, r, _, hE, h => by
    simp only [flatLoop, Res.ok.injEq] at h
    subst h
    exact hE
  | fuel + 1, t :: ts, E, pos, r, ht, hE, h => by
    unfold flatLoop at h
    obtain ⟨q, h1, h⟩ := Res.bind_eq_ok.1 h
    obtain ⟨h2, h3⟩ := flatLevel_fits _ _ _ _ ht (by simp) hE h1
    exact flatLoop_fits fuel _ _ _ h3 h2 h

theorem flatTrie_fits {t : Trie} {E : List FNode} (h : t.vals (· < W32)) (e : flatTrie t = .ok E) :
    ∀ f ∈ E, f.fits := by
  refine flatLoop_fits _ _ _ _ ?_ (level_fits h) e
  intro u hu
  obtain ⟨n, hn, rfl⟩ := List.mem_map.1 hu
  exact (vals_nodes h n hn).2

/-- The numbers of a dictionary made of valid words fit in 32 bits. -/
theorem dictOf_fits (S : StdSort) {ws : List (List Nat)} (hs : ∀ w ∈ ws, ∀ c ∈ w, Scalar c) {E : List FNode}
    (h : dictOf S (ws.map encAll) = .ok E) : ∀ f ∈ E, f.fits := by
  obtain ⟨l, e1, hi, hm⟩ := sortedWords_ok S (ws.map (List.map packed))
  unfold dictOf at h
  rw [allCodes_ok hs, Res.ok_bind, e1, Res.ok_bind] at h
  obtain ⟨t, h1, h⟩ := Res.bind_eq_ok.1 h
  refine flatTrie_fits (insertAfter_vals _ _ _ ?_ h1) h
  intro w hw c hc
  obtain ⟨v, hv, rfl⟩ := List.mem_map.1 ((hm w).1 hw)
  obtain ⟨d, hd, rfl⟩ := List.mem_map.1 hc
  exact packed_lt (hs v hv d hd)

end Ppocr

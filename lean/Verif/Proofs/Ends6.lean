import Verif.Proofs.Ends

/-! # The functions of `extract_text6` and `extract_text8` come to an end -/

namespace Ppocr
open Spec Props

theorem Res.OkUb.ends {α : Type} {r : Res α} (h : r.OkUb) : Ends r := by
  rcases h with h | ⟨a, h⟩ <;> rw [h] <;> infer_instance

/-! ### The tables -/

instance (α : Type) (l : List α) (i : Nat) (x : α) : Ends (wrAt l i x) := by
  unfold wrAt
  finishes

instance (n k : Nat) (cat : List Nat) : Ends (bumpFrom n k cat) := by
  fun_induction bumpFrom <;> finishes

instance (interval : Nat) (l cat : List Nat) : Ends (nbLoop interval l cat) := by
  fun_induction nbLoop <;> finishes

instance (l cat : List Nat) : Ends (shiftLoop l cat) := by
  fun_induction shiftLoop <;> finishes

instance (interval : Nat) (col nb : List Nat) : Ends (shiftOf interval col nb) := by
  unfold shiftOf
  finishes

instance (col : List Nat) (shift value d n i : Nat) (mask : List Nat) : Ends (maskFill col shift value d n i mask) := by
  fun_induction maskFill <;> finishes

instance (col : List Nat) (shift nb d value : Nat) : Ends (maskOf col shift nb d value) := by
  unfold maskOf
  finishes

theorem eachRes_ends {α β : Type} (f : α → Res β) : ∀ l : List α, (∀ a ∈ l, Ends (f a)) → Ends (eachRes f l)
  | [], _ => by
    unfold eachRes
    finishes
  | a :: l, h => by
    unfold eachRes
    have := h a (by simp)
    have := eachRes_ends f l fun b hb => h b (by simp [hb])
    finishes

instance {α β : Type} (f : α → Res β) (l : List α) [∀ a, Ends (f a)] : Ends (eachRes f l) := eachRes_ends f l fun _ _ => inferInstance

instance (d : Datas) (shift nb : Nat) (s : Feat × Policy) : Ends (masksOf d shift nb s) := by
  unfold masksOf
  finishes

instance {α : Type} (l : List (Option α)) : Ends (unmoved l) := by
  fun_induction unmoved <;> finishes

instance (ts : List Table) (cs : List (List (Option Value))) : Ends (columns6 ts cs) := by
  fun_induction columns6 <;> finishes

instance {α : Type} (S : StdSort) (lt : α → α → Res Bool) (l : List α) : Ends (sortRes S lt l) := by
  unfold sortRes
  finishes

instance {α : Type} (is : List Nat) (k : Nat) (cont new : List (Option α)) : Ends (moveLoop is k cont new) :=
  (moveLoop_okub is k cont new).ends

instance {α : Type} (dflt : α) (is : List Nat) (cont : List α) : Ends (reindex dflt is cont) := by
  unfold reindex
  finishes

instance (idx : List Nat) (ts : List Table) : Ends (reindexTables idx ts) := by
  fun_induction reindexTables <;> finishes

instance (S : StdSort) (d : Datas) (ws : List Words) : Ends (order6 S d ws) := by
  unfold order6
  finishes

instance (gs : List (Option Words)) (n : Nat) (m : List (List Nat × List Nat)) : Ends (collectFirst gs n m) := by
  fun_induction collectFirst <;> finishes

instance (gs : List (Option Words)) : Ends (makeByWord gs) := by
  unfold makeByWord
  finishes

instance (d : Datas) (ws : List Words) : Ends (build6 d ws) := by
  unfold build6
  finishes

/-! ### One letter -/

theorem toolLoad_ends (s : Feat × Policy) {a r : Image} (ha : AllCells a) (hr : AllCells r) : Ends (toolLoad s a r) := by
  unfold toolLoad
  have h1 := ha.stratLoad hr s Ctxs.fresh
  have h2 := hr.stratLoad ha s Ctxs.fresh
  split
  all_goals
    refine Ends.bind' (by assumption) fun p => ?_
    finishes

instance (interval v x : Nat) : Ends (factor6 interval v x) := by
  unfold factor6
  finishes

instance (k : Nat) (l : List (List Nat × Nat × Nat)) (p : Prob6) : Ends (probFrom k l p) := by
  fun_induction probFrom <;> finishes

instance (acc ms : List Nat) : Ends (andMasks acc ms) := by
  fun_induction andMasks <;> finishes

instance (l : List (List (List Nat) × Nat)) (acc : List Nat) : Ends (reduceMasks l acc) := by
  fun_induction reduceMasks <;> finishes

instance (acc : List Nat) (shift : Nat) (prob : Nat → Res Prob6) (n i : Nat) [∀ k, Ends (prob k)] : Ends (collect6 acc shift prob n i) := by
  fun_induction collect6 <;> finishes

theorem candidates6_ends (t : Tab6) {a r : Image} (ha : AllCells a) (hr : AllCells r) : Ends (candidates6 t a r) := by
  have := fun s => toolLoad_ends s ha hr
  unfold candidates6
  finishes

section
variable {P : Type}

instance (S : StdSort) (less : P → P → Bool) (words : List Words) (ps : List (Nat × P)) : Ends (sortShow S less words ps) := by
  unfold sortShow
  finishes

/-- Loading from these pictures ends, and so does comparing with what is in the table. -/
structure Strat.Stops6 (s : Strat) (a r : Image) : Prop where
  load : Ends (s.load a r)
  compute : ∀ a b, Ends (s.rel.compute a b)

theorem strat6_stops (d : Datas) (s : Feat × Policy) {a r : Image} (ha : AllCells a) (hr : AllCells r) : (d.strat6 s).Stops6 a r := by
  have := toolLoad_ends s ha hr
  unfold Datas.strat6
  split
  all_goals
    refine ⟨?_, ?_⟩
    all_goals
      intros
      simp only [arrayRel, pzRel, equalRel]
      finishes

theorem complexLoop_ends {V : Type} (scale : P → Nat → Nat → P) (rel : Rel V) (tab : List V) (value : V)
    (h : ∀ a b, Ends (rel.compute a b)) (ps : List (Nat × P)) : Ends (complexLoop scale rel tab value ps) := by
  fun_induction complexLoop <;> finishes

theorem reduceComplex6_ends (scale : P → Nat → Nat → P) (a r : Image) : ∀ (l : List Strat) (ps : List (Nat × P)),
    (∀ s ∈ l, s.Stops6 a r) → Ends (reduceComplex6 scale a r l ps)
  | [], _, _ => by
    unfold reduceComplex6
    finishes
  | s :: ss, _, h => by
    unfold reduceComplex6
    have := (h s (by simp)).load
    have := fun v => complexLoop_ends scale s.rel s.tab v (h s (by simp)).compute
    have := fun ps => reduceComplex6_ends scale a r ss ps fun t ht => h t (by simp [ht])
    finishes

theorem loadTests6_ends (a r : Image) : ∀ (l : List Strat), (∀ s ∈ l, s.Stops6 a r) →
    Ends (loadTests6 a r l) ∧ ∀ ts, loadTests6 a r l = .ok ts → ∀ t ∈ ts, ∀ i, Ends (t i)
  | [], _ => by
    unfold loadTests6
    refine ⟨inferInstance, ?_⟩
    rintro ts h
    cases h
    simp
  | s :: ss, h => by
    unfold loadTests6
    have h1 := (h s (by simp)).load
    have h2 := (h s (by simp)).compute
    obtain ⟨h3, h4⟩ := loadTests6_ends a r ss fun t ht => h t (by simp [ht])
    refine ⟨by finishes, ?_⟩
    intro ts e t ht i
    obtain ⟨v, _, e⟩ := Res.bind_eq_ok.1 e
    obtain ⟨r, hr, e⟩ := Res.bind_eq_ok.1 e
    cases e
    rcases List.mem_cons.1 ht with rfl | ht
    · finishes
    · exact h4 r hr t ht i

theorem reduceExclusive6_ends (byWords : List (List Nat)) (a r : Image) (ss : List Strat) (ps : List (Nat × P))
    (h : ∀ s ∈ ss, s.Stops6 a r) : Ends (reduceExclusive6 byWords a r ss ps) := by
  unfold reduceExclusive6
  obtain ⟨h1, h2⟩ := loadTests6_ends a r ss h
  split
  · infer_instance
  · refine Ends.bind_ok h1 fun ts hts => ?_
    have := fun i => allTests_ends ts i (h2 ts hts)
    infer_instance

instance (words : List Words) (stop : P → Bool) (ps : List (Nat × P)) : Ends (gather6 words stop ps) := by
  fun_induction gather6 <;> finishes

instance (words : List Words) (p : Nat × P) : Ends (getWord6 words p) := by
  unfold getWord6
  finishes

end

theorem stops6_map (d : Datas) (l : List (Feat × Policy)) {a r : Image} (ha : AllCells a) (hr : AllCells r) :
    ∀ s ∈ l.map d.strat6, s.Stops6 a r := by
  intro s hs
  obtain ⟨u, _, rfl⟩ := List.mem_map.1 hs
  exact strat6_stops d u ha hr

theorem computeLetter6_ends (S : StdSort) (t : Tab6) {a r : Image} (ha : AllCells a) (hr : AllCells r) : Ends (computeLetter6 S t a r) := by
  have := candidates6_ends t ha hr
  have := fun ps => reduceComplex6_ends Prob6.mulDiv a r (complexStrats.map t.datas.strat6) ps (stops6_map _ _ ha hr)
  have := fun ps : Probs6 => reduceExclusive6_ends t.byWords a r (exclusiveStrats.map t.datas.strat6) ps (stops6_map _ _ ha hr)
  unfold computeLetter6
  finishes

/-! ### One letter in `extract_text8` -/

section
variable {P : Type} [Prob8 P]

instance (interval v x : Nat) : Ends (factor8 interval v x) := by
  unfold factor8
  finishes

instance (col : List Nat) (x d n i : Nat) : Ends (first8 (P := P) col x d n i) := by
  fun_induction first8 <;> finishes

omit [Prob8 P] in
theorem reduce8_ends (col : List Nat) (x d : Nat) (ps : List (Nat × P)) : Ends (reduce8 col x d ps) := by
  fun_induction reduce8 <;> finishes

omit [Prob8 P] in
theorem reduceAll8_ends (d : Datas) {a r : Image} (ha : AllCells a) (hr : AllCells r) (l : List (Feat × Policy)) (ps : List (Nat × P)) :
    Ends (reduceAll8 d a r l ps) := by
  have := fun s => toolLoad_ends s ha hr
  have := fun col x d (ps : List (Nat × P)) => reduce8_ends col x d ps
  fun_induction reduceAll8 <;> finishes

theorem update8_ends (d : Datas) {a r : Image} (ha : AllCells a) (hr : AllCells r) (i : Nat) (l : List (Feat × Policy)) (p : P) :
    Ends (update8 d a r i l p) := by
  have := fun s => toolLoad_ends s ha hr
  fun_induction update8 <;> finishes

theorem candidates8_ends (t : Tab8) (hs : t.datas.size < W32) {a r : Image} (ha : AllCells a) (hr : AllCells r) :
    Ends (candidates8 (P := P) t a r) := by
  have := fun l (ps : List (Nat × P)) => reduceAll8_ends t.datas ha hr l ps
  have := fun i l (p : P) => update8_ends t.datas ha hr i l p
  unfold candidates8
  refine Ends.bind' (toolLoad_ends _ ha hr) fun v => ?_
  rw [if_neg (by omega)]
  finishes

theorem computeLetter8_ends (S : StdSort) (t : Tab8) (hs : t.datas.size < W32) {a r : Image} (ha : AllCells a) (hr : AllCells r) :
    Ends (computeLetter8 P S t a r) := by
  have := candidates8_ends (P := P) t hs ha hr
  have := fun ps : List (Nat × P) => reduceComplex6_ends Prob8.scale a r (complexStrats.map t.datas.strat6) ps (stops6_map _ _ ha hr)
  have := fun ps : List (Nat × P) => reduceExclusive6_ends t.byWords a r (exclusiveStrats.map t.datas.strat6) ps (stops6_map _ _ ha hr)
  unfold computeLetter8
  finishes

end

/-! ### The line -/

theorem letterStep6_ends {F : Image → Image → Res Letter6} {i a : Image} {x : Nat} {b : Box} (l : Line6)
    (hp : i.section b.x b.y b.bounds = .ok a) (ha : a.WF) (h : Ends (F a (turned a))) : Ends (letterStep6 F i x b l) := by
  unfold letterStep6
  rw [hp, Res.ok_bind, rotate90_turned ha]
  dsimp only
  simp only [Res.ok_bind]
  finishes

theorem lineLoop6_ends {F : Image → Image → Res Letter6} {i : Image} (wf : i.WF) (hh : 0 < i.bounds.h)
    (hsz : i.bounds.w * i.bounds.h + i.bounds.w ≤ W32) (hst : ∀ a, CutFrom i a → Ends (F a (turned a))) :
    ∀ (fuel x : Nat) (l : Line6), x < i.bounds.w → i.bounds.w < fuel + x → Ends (lineLoop6 F i fuel x l)
  | 0, _, _, hx, hf => by omega
  | fuel + 1, x, l, hx, hf => by
    unfold lineLoop6
    rcases makeBox_ok wf hx hh hsz with ⟨b, h1, h2, h3⟩ | ⟨b, h1, h2, _⟩ | ⟨h1, _⟩
    · obtain ⟨a, ha, hcut⟩ := h3.cut wf
      have hb1 := h3.wpos
      have hb2 := h3.notLast
      have hb3 := h3.left
      have hw := wf.w_lt
      rw [h1, Res.ok_bind, if_pos h2]
      refine Ends.bind' (letterStep6_ends l ha (hcut.cells wf).1 (hst a hcut)) fun l' => ?_
      rw [uadd_eq (by omega)]
      exact lineLoop6_ends wf hh hsz hst fuel _ l' hb2 (by omega)
    · rw [h1, Res.ok_bind, if_neg (by rw [h2]; exact Bool.false_ne_true)]
      finishes
    · rw [h1]
      exact ⟨fun h => nomatch h⟩

/-! ### The text -/

theorem sepLoop6_le : ∀ (ls : List Words) (out : List Nat), (sepLoop6 ls out).2.length ≤ ls.length ∧
    ∀ l, (sepLoop6 ls out).2.head? = some l → isSep6 l = false
  | [], _ => by simp [sepLoop6]
  | [] :: ls, out => by
    obtain ⟨h1, h2⟩ := sepLoop6_le ls (out ++ [63])
    rw [sepLoop6]
    exact ⟨by simp only [List.length_cons]; omega, h2⟩
  | (w :: l) :: ls, out => by
    rw [sepLoop6]
    split
    · obtain ⟨h1, h2⟩ := sepLoop6_le ls (out ++ w)
      exact ⟨by simp only [List.length_cons]; omega, h2⟩
    · rename_i h
      refine ⟨Nat.le_refl _, ?_⟩
      intro l' h'
      simp only [List.head?_cons, Option.some.injEq] at h'
      rw [← h']
      simpa using h

theorem textLoop6_ends (E : List FNode) : ∀ (fuel : Nat) (ls : List Words) (out : List Nat), ls.length < fuel →
    (∀ l, ls.head? = some l → isSep6 l = false) → Ends (textLoop6 E fuel ls out)
  | 0, _, _, h, _ => by omega
  | fuel + 1, [], _, _, _ => by
    unfold textLoop6
    rw [if_pos (by rfl)]
    infer_instance
  | fuel + 1, l :: ls, out, h, hh => by
    have hl := hh l rfl
    unfold textLoop6
    rw [if_neg (by simp)]
    refine Ends.bind' (by infer_instance) fun r => ?_
    dsimp only
    rw [List.dropWhile_cons_of_pos (by simp [hl])]
    obtain ⟨h1, h2⟩ := sepLoop6_le (ls.dropWhile fun l => !isSep6 l)
      (if r.1 then r.2 else r.2 ++ (((l :: ls).takeWhile fun l => !isSep6 l).filterMap List.head?).flatten)
    have := (List.dropWhile_sublist (l := ls) fun l => !isSep6 l).length_le
    simp only [List.length_cons] at h
    exact textLoop6_ends E fuel _ _ (by omega) h2

theorem head_dropWhile {α : Type} (p : α → Bool) : ∀ (ls : List α) (l : α), (ls.dropWhile p).head? = some l → p l = false
  | [], _, h => by simp at h
  | a :: ls, l, h => by
    cases hp : p a with
    | true =>
      rw [List.dropWhile_cons_of_pos hp] at h
      exact head_dropWhile p ls l h
    | false =>
      rw [List.dropWhile_cons_of_neg (by simp [hp])] at h
      simp only [List.head?_cons, Option.some.injEq] at h
      rw [← h, hp]

instance (E : List FNode) (amb : List Words) : Ends (text6 E amb) := by
  unfold text6
  have := (List.dropWhile_sublist (l := amb) isSep6).length_le
  exact textLoop6_ends E _ _ _ (by omega) (head_dropWhile _ _)

/-! ### The files -/

instance (f : TextFile) : Ends (loadLGlyphs f) := by
  have : ∀ s old, Ends (glyphsRead s old) := by
    intro s old
    unfold glyphsRead
    obtain ⟨gs, s', e, _⟩ := glyphsLoop_total (s.rest.length + 1) s [] old (Nat.lt_succ_self _)
    rw [e]
    infer_instance
  unfold loadLGlyphs
  finishes

instance (g : LGlyph) : Ends (uniqueWords g) := by
  unfold uniqueWords
  finishes

instance (gs : List LGlyph) : Ends (allWords gs) := by
  fun_induction allWords <;> finishes

/-! ### Merging glyphs in `extract_text8` -/

instance (i j : Nat) (ts : List Table) : Ends (rowEq i j ts) := (rowEq_okub i j ts).ends

instance (d : Datas) (i : Nat) (js : List Nat) : Ends (findRow d i js) := by
  fun_induction findRow <;> finishes

theorem findRow_le {d : Datas} {i : Nat} : ∀ {js : List Nat} {n : Nat}, findRow d i js = .ok n → n ≤ js.length
  | [], n, h => by
    cases h
    exact Nat.le_refl _
  | j :: js, n, h => by
    unfold findRow at h
    obtain ⟨b, _, h⟩ := Res.bind_eq_ok.1 h
    split at h
    · cases h
      exact Nat.zero_le _
    · obtain ⟨k, hk, h⟩ := Res.bind_eq_ok.1 h
      cases h
      have := findRow_le hk
      simp only [List.length_cons]
      omega

theorem mergeFrom_ends (mv : List Nat → List Nat) (d : Datas) (idx : List Nat) : ∀ (fuel first : Nat) (m : Merge), first ≤ idx.length →
    idx.length < fuel + first → Ends (mergeFrom mv d idx fuel first m)
  | 0, _, _, h1, h2 => by omega
  | fuel + 1, first, m, h1, h2 => by
    unfold mergeFrom
    split
    · infer_instance
    · refine Ends.bind' (by infer_instance) fun i => Ends.bind_ok (by infer_instance) fun n hn =>
        Ends.bind' (mergeRun_okub mv idx n _ m).ends fun m' => ?_
      have := findRow_le hn
      rw [List.length_drop] at this
      exact mergeFrom_ends mv d idx fuel (first + 1 + n) m' (by omega) (by omega)

theorem skipDup_ends (dup : List Nat) (p f : Nat) : Ends (skipDup dup p (dup.length + 1) f) :=
  (skipDup_okub dup p (dup.length + 1) f (by omega) (by omega)).ends

instance (dup : List Nat) (n p f out : Nat) (idx : List Nat) : Ends (copyKept dup n p f out idx) := by
  have := skipDup_ends dup
  fun_induction copyKept <;> finishes

instance (vs : List Nat) (k : Nat) (idx : List Nat) : Ends (wrFrom vs k idx) := by
  fun_induction wrFrom <;> finishes

instance (dup idx : List Nat) : Ends (dropDups dup idx) := by
  unfold dropDups
  finishes

instance (S : StdSort) (mv : List Nat → List Nat) (d : Datas) (ws : List Words) : Ends (prepare8 S mv d ws) := by
  have := fun idx m => mergeFrom_ends mv d idx (idx.length + 1) 0 m (Nat.zero_le _) (by omega)
  unfold prepare8
  finishes

instance (S : StdSort) (mv : List Nat → List Nat) (f : ProgFiles) : Ends (tables8 S mv f) := by
  unfold tables8
  finishes

instance (d : Datas) (p : Prepared) (bw : List (List Nat)) : Ends (tab8 d p bw) := by
  unfold tab8
  finishes

/-! ### The number of rows behind the merging -/

theorem unmoved_length {α : Type} : ∀ {l : List (Option α)} {r : List α}, unmoved l = .ok r → r.length = l.length
  | [], _, h => by
    cases h
    rfl
  | none :: _, _, h => by simp [unmoved] at h
  | some a :: l, r, h => by
    unfold unmoved at h
    obtain ⟨q, hq, h⟩ := Res.bind_eq_ok.1 h
    cases h
    simp [unmoved_length hq]

/-- The rows of the first column. -/
def firstRows : List (List (Option Value)) → Nat
  | [] => 0
  | c :: _ => c.length

theorem columns6_size : ∀ {ts : List Table} {cs : List (List (Option Value))} {r : List Table}, columns6 ts cs = .ok r →
    Datas.size ⟨r, Ctxs.fresh⟩ ≤ firstRows cs
  | [], _, _, h => by
    cases h
    exact Nat.zero_le _
  | _ :: _, [], _, h => by simp [columns6] at h
  | t :: ts, c :: cs, r, h => by
    unfold columns6 at h
    obtain ⟨v, hv, h⟩ := Res.bind_eq_ok.1 h
    obtain ⟨q, hq, h⟩ := Res.bind_eq_ok.1 h
    cases h
    exact Nat.le_of_eq (unmoved_length hv)

theorem moveLoop_length {α : Type} : ∀ {is : List Nat} {k : Nat} {cont new r : List (Option α)}, moveLoop is k cont new = .ok r →
    r.length = new.length
  | [], _, _, _, _, h => by
    cases h
    rfl
  | i :: is, k, cont, new, r, h => by
    unfold moveLoop at h
    obtain ⟨x, _, h⟩ := Res.bind_eq_ok.1 h
    obtain ⟨n, hn, h⟩ := Res.bind_eq_ok.1 h
    obtain ⟨c, _, h⟩ := Res.bind_eq_ok.1 h
    rw [moveLoop_length h]
    unfold wrAt at hn
    split at hn
    · cases hn
      exact List.length_set
    · cases hn

theorem reindexTables_rows {idx : List Nat} {d : Datas} {cs : List (List (Option Value))} (h : reindexTables idx d.tables = .ok cs) :
    firstRows cs ≤ d.size := by
  unfold Datas.size
  cases ht : d.tables with
  | nil =>
    rw [ht] at h
    cases h
    exact Nat.le_refl _
  | cons t ts =>
    rw [ht] at h
    unfold reindexTables at h
    obtain ⟨c, hc, h⟩ := Res.bind_eq_ok.1 h
    obtain ⟨q, _, h⟩ := Res.bind_eq_ok.1 h
    cases h
    unfold reindex at hc
    have := moveLoop_length hc
    simp only [List.length_replicate] at this
    exact Nat.le_of_eq this

theorem prepare8_rows {S : StdSort} {mv : List Nat → List Nat} {d : Datas} {ws : List Words} {p : Prepared} (hd : ws.length = d.size)
    (h : prepare8 S mv d ws = .ok p) : firstRows p.cols < W32 := by
  unfold prepare8 at h
  split at h
  · dsimp only at h
    obtain ⟨_, ha, h⟩ := Res.bind_eq_ok.1 h
    obtain ⟨_, _, h⟩ := Res.bind_eq_ok.1 h
    obtain ⟨_, _, h⟩ := Res.bind_eq_ok.1 h
    obtain ⟨_, _, h⟩ := Res.bind_eq_ok.1 h
    obtain ⟨_, _, h⟩ := Res.bind_eq_ok.1 h
    obtain ⟨cols, hc, h⟩ := Res.bind_eq_ok.1 h
    cases h
    have h1 := reindexTables_rows hc
    have h2 : d.size % W32 = d.size := by
      unfold assert at ha
      split at ha
      · rename_i h
        simpa using h
      · cases ha
    have : d.size < W32 := by
      rw [← h2]
      exact Nat.mod_lt _ (by decide)
    exact Nat.lt_of_le_of_lt h1 this
  · cases h
    have : firstRows (d.tables.map fun t => t.vals.map some) ≤ d.size := by
      unfold Datas.size
      cases d.tables with
      | nil => exact Nat.le_refl _
      | cons t ts => simp [firstRows]
    have hw : 1 < W32 := by decide
    show firstRows (d.tables.map fun t => t.vals.map some) < W32
    omega

theorem allWords_length : ∀ {gs : List LGlyph} {ws : List Words}, allWords gs = .ok ws → ws.length = gs.length
  | [], _, h => by
    cases h
    rfl
  | g :: gs, ws, h => by
    unfold allWords at h
    obtain ⟨w, _, h⟩ := Res.bind_eq_ok.1 h
    obtain ⟨q, hq, h⟩ := Res.bind_eq_ok.1 h
    cases h
    simp [allWords_length hq]

/-- The index over the rows does not wrap: `main` counts the glyphs with an `unsigned` before. -/
theorem tables8_size {S : StdSort} {mv : List Nat → List Nat} {f : ProgFiles} {E : List FNode} {d : Datas} {p : Prepared}
    {bw : List (List Nat)} {t : Tab8} (h : tables8 S mv f = .ok (E, d, p, bw)) (ht : tab8 d p bw = .ok t) : t.datas.size < W32 := by
  unfold tables8 at h
  obtain ⟨E', _, h⟩ := Res.bind_eq_ok.1 h
  obtain ⟨d', _, h⟩ := Res.bind_eq_ok.1 h
  obtain ⟨gs, _, h⟩ := Res.bind_eq_ok.1 h
  split at h
  · cases h
  · rename_i hg
    obtain ⟨ws, hw, h⟩ := Res.bind_eq_ok.1 h
    obtain ⟨p', hp, h⟩ := Res.bind_eq_ok.1 h
    obtain ⟨bw', _, h⟩ := Res.bind_eq_ok.1 h
    cases h
    have := prepare8_rows (by rw [allWords_length hw]; omega) hp
    unfold tab8 at ht
    obtain ⟨_, _, ht⟩ := Res.bind_eq_ok.1 ht
    obtain ⟨ts, h2, ht⟩ := Res.bind_eq_ok.1 ht
    cases ht
    exact Nat.lt_of_le_of_lt (columns6_size h2) this

/-! ### `write_glyphs` -/

instance (i : Image) : Ends (imgWrite i) := by
  unfold imgWrite
  finishes

instance (g : LGlyph) : Ends (glyphWrite g) := by
  unfold glyphWrite
  finishes

instance {α : Type} (r : Res α) [Ends r] : Ends r.void := by
  unfold Res.void
  finishes

theorem glyphStep_ends {i : Image} {x : Nat} (font : List Nat) (s : IS) (h : Ends (makeBox i x 0 i.bounds)) : Ends (glyphStep i font x s) := by
  unfold glyphStep
  finishes

theorem glyphsOfLoop_ends {i : Image} (font : List Nat) : ∀ (fuel x : Nat) (s : IS) (out : List Nat),
    segmentFrom i fuel x ≠ .diverge → Ends (glyphsOfLoop i font fuel x s out).ended
  | 0, _, _, _, h => absurd rfl h
  | fuel + 1, x, s, out, h => by
    have hb : Ends (makeBox i x 0 i.bounds) := by
      refine ⟨fun e => h ?_⟩
      unfold segmentFrom
      rw [e]
      rfl
    have hs := glyphStep_ends font s hb
    unfold glyphsOfLoop
    cases hg : glyphStep i font x s with
    | ok o =>
      cases o with
      | none => exact inferInstanceAs (Ends (.ok ()))
      | some p =>
        obtain ⟨x', s', t⟩ := p
        refine glyphsOfLoop_ends font fuel x' s' (out ++ t) fun e => h ?_
        unfold glyphStep at hg
        obtain ⟨b, e1, hg⟩ := Res.bind_eq_ok.1 hg
        unfold segmentFrom
        rw [e1, Res.ok_bind]
        split at hg
        · rename_i ht
          rw [if_pos ht]
          obtain ⟨a, _, hg⟩ := Res.bind_eq_ok.1 hg
          dsimp only at hg
          split at hg
          · cases hg
          · obtain ⟨_, _, hg⟩ := Res.bind_eq_ok.1 hg
            cases hg
            rw [e]
            rfl
        · split at hg <;> cases hg
    | throw => exact inferInstanceAs (Ends .throw)
    | abort => exact inferInstanceAs (Ends .abort)
    | ub => exact inferInstanceAs (Ends .ub)
    | diverge => exact absurd hg hs.out

theorem segment_ends {i : Image} (h : Picture i) (hsz : i.bounds.w * i.bounds.h + i.bounds.w ≤ W32) : segment i ≠ .diverge := by
  intro e
  unfold segment at e
  rcases segmentFrom_ok h.wf h.h hsz (i.bounds.w + 1) 0 h.w (by omega) (by omega) with ⟨bs, h1, _⟩ | ⟨h1, _⟩ <;> rw [e] at h1 <;> cases h1

theorem loadFile_ends (lum : Nat) (j : Job)
    (h : ∀ i, loadImage j.image lum = .ok i → i.bounds.w * i.bounds.h + i.bounds.w ≤ W32) : Ends (loadFile lum j).ended := by
  unfold loadFile
  have hr : Ends (do let s ← openText j.text; let i ← loadImage j.image lum; return (s, i) : Res (IS × Image)) := by finishes
  split
  · rename_i s i e
    obtain ⟨s', _, e⟩ := Res.bind_eq_ok.1 e
    obtain ⟨_, ei, e⟩ := Res.bind_eq_ok.1 e
    cases e
    exact glyphsOfLoop_ends _ _ _ _ _ (segment_ends (loadImage_picture ei) (h _ ei))
  · infer_instance

theorem writeGlyphs_ends (lum : Nat) : ∀ js : List Job,
    (∀ j ∈ js, ∀ i, loadImage j.image lum = .ok i → i.bounds.w * i.bounds.h + i.bounds.w ≤ W32) → Ends (writeGlyphs lum js).ended
  | [], _ => inferInstanceAs (Ends (.ok ()))
  | j :: js, h => by
    have h1 := loadFile_ends lum j (h j (by simp))
    have h2 := writeGlyphs_ends lum js fun k hk => h k (by simp [hk])
    unfold writeGlyphs
    dsimp only
    split
    · exact h2
    · exact h1

/-! ### `make_trie_dictionary` -/

theorem dropWhile_rest {l r : List Nat} {c : Nat} {p : Nat → Bool} (h : l.dropWhile p = c :: r) : r.length < l.length := by
  have := (List.dropWhile_sublist (l := l) p).length_le
  rw [h, List.length_cons] at this
  omega

/-- The last line may end with the file; the read after it fails. -/
theorem linesLoop_ends : ∀ (fuel : Nat) (s : IS) (str : List Nat), s.rest.length + 1 < fuel ∨ s.eof = true ∧ 0 < fuel →
    Ends (linesLoop fuel s str)
  | 0, _, _, h => by omega
  | fuel + 1, s, str, h => by
    unfold linesLoop
    dsimp only
    split
    · infer_instance
    · rename_i hf
      refine Ends.bind' (linesLoop_ends fuel _ _ ?_) fun l => by finishes
      have key : ((s.getline str).2.rest.length < s.rest.length ∧ s.eof = false) ∨
          (s.getline str).2.eof = true ∧ s.eof = false := by
        revert hf
        unfold IS.getline IS.sentry
        cases hg : s.good with
        | false => simp
        | true =>
          have he : s.eof = false := by
            unfold IS.good at hg
            cases h : s.eof <;> simp_all
          simp only [Bool.not_true, Bool.and_false, Bool.false_eq_true, if_false]
          cases hd : s.rest.dropWhile (· ≠ 10) with
          | nil => intro _; exact .inr ⟨rfl, he⟩
          | cons c r => intro _; exact .inl ⟨dropWhile_rest hd, he⟩
      rcases key with ⟨k1, k2⟩ | ⟨k1, k2⟩
      · rcases h with h | ⟨h, _⟩
        · exact .inl (by omega)
        · rw [h] at k2; cases k2
      · refine .inr ⟨k1, ?_⟩
        rcases h with h | ⟨h, _⟩
        · omega
        · rw [h] at k2; cases k2

instance (text : List Nat) : Ends (fileLines text) := by
  unfold fileLines
  exact linesLoop_ends _ _ _ (.inl (by simp [IS.of]))

instance (as : List (Option (List Nat))) (o : Bool) : Ends (wordsLoop as o) := by
  fun_induction wordsLoop <;> finishes

theorem utfCollect_ends (src : List Nat) : ∀ (fuel pos : Nat), src.length < fuel + pos → 0 < fuel →
    Ends (utfCollect utf8Next src fuel pos)
  | 0, _, _, h => by omega
  | fuel + 1, pos, h, _ => by
    unfold utfCollect
    refine Ends.bind_ok (by infer_instance) fun r hr => ?_
    obtain ⟨h1, h2⟩ := utf8Next_pos hr
    split
    · infer_instance
    · exact Ends.bind' (utfCollect_ends src fuel r.2 (by omega) (by omega)) fun q => by infer_instance

instance (w : List Nat) : Ends (wordCodes w) := by
  have : Ends (utfCodes utf8Next (w ++ [0])) := utfCollect_ends _ _ _ (by omega) (by omega)
  unfold wordCodes
  finishes

instance (ws : List (List Nat)) : Ends (allCodes ws) := by
  fun_induction allCodes <;> finishes

theorem trieOf_ends {ws : List (List Nat)} (hi : Increasing ws) : Ends (trieOf ws) := by
  by_cases hne : ∀ w ∈ ws, w ≠ []
  · obtain ⟨t, e, _⟩ := trieOf_ok hne hi
    rw [e]
    infer_instance
  · cases ws with
    | nil => exact absurd (by simp) hne
    | cons w ws =>
      have : w = [] := by
        cases w with
        | nil => rfl
        | cons a w =>
          exfalso
          refine hne fun v hv e => ?_
          subst e
          rcases List.mem_cons.1 hv with h | h
          · cases h
          · have := (List.pairwise_cons.1 hi).1 _ h
            simp [wordLt] at this
      subst this
      unfold trieOf insertAfter
      exact inferInstanceAs (Ends .ub)

instance (E : List FNode) (i v : Nat) : Ends (setPos E i v) := by
  unfold setPos
  finishes

instance (ts : List Trie) (E : List FNode) (q : List Trie) (pos : Nat) : Ends (flatLevel ts E q pos) := by
  fun_induction flatLevel <;> finishes

/-- The tries below those of a level. -/
theorem flatLevel_next : ∀ {ts : List Trie} {E : List FNode} {q : List Trie} {pos : Nat} {r : List FNode × List Trie × Nat},
    flatLevel ts E q pos = .ok r → r.2.1 = q ++ ts.flatMap fun t => t.nodes.map TNode.kids
  | [], _, _, _, _, h => by
    cases h
    simp
  | t :: ts, E, q, pos, r, h => by
    unfold flatLevel at h
    obtain ⟨E', _, h⟩ := Res.bind_eq_ok.1 h
    rw [flatLevel_next h]
    simp

theorem count_next : ∀ ts : List Trie, ((ts.flatMap fun t => t.nodes.map TNode.kids).map Trie.count).sum +
    (ts.flatMap fun t => t.nodes.map TNode.kids).length = (ts.map Trie.count).sum
  | [] => rfl
  | t :: ts => by
    have := count_next ts
    have := count_eq t
    simp only [List.flatMap_cons, List.map_append, List.sum_append, List.length_append, List.map_cons, List.sum_cons, List.length_map]
    omega

theorem flatLoop_ends : ∀ (fuel : Nat) (ts : List Trie) (E : List FNode) (pos : Nat), 0 < fuel →
    (ts ≠ [] → (ts.map Trie.count).sum + 1 < fuel) → Ends (flatLoop fuel ts E pos)
  | 0, _, _, _, h, _ => by omega
  | _ + 1, [], _, _, _, _ => by
    unfold flatLoop
    infer_instance
  | fuel + 1, t :: ts, E, pos, _, h => by
    unfold flatLoop
    refine Ends.bind_ok (by infer_instance) fun r hr => ?_
    have h1 := flatLevel_next hr
    rw [List.nil_append] at h1
    have h2 := count_next (t :: ts)
    have h3 := h (by simp)
    refine flatLoop_ends fuel _ _ _ (by omega) fun hne => ?_
    rw [h1] at hne ⊢
    have := List.length_pos_iff.2 hne
    omega

instance (t : Trie) : Ends (flatTrie t) := by
  unfold flatTrie
  refine flatLoop_ends _ _ _ _ (by omega) fun hne => ?_
  have h1 := count_eq t
  have h2 := List.length_pos_iff.2 hne
  rw [List.length_map] at h2
  omega

instance (S : StdSort) (ws : List (List Nat)) : Ends (dictOf S ws) := by
  unfold dictOf
  refine Ends.bind' (by infer_instance) fun us => ?_
  obtain ⟨l, e, hi, _⟩ := sortedWords_ok S us
  rw [e, Res.ok_bind]
  exact Ends.bind' (trieOf_ends hi) fun t => by infer_instance

instance (S : StdSort) (args : List (Option (List Nat))) : Ends (makeTrie S args) := by
  unfold makeTrie
  finishes

end Ppocr

import Verif.Model.Tools
import Verif.Proofs.GlyphsLoad

/-! # Reading the beginning of a text -/

namespace Ppocr

/-- A failure before the end. -/
def IS.Stuck (s : IS) : Prop := s.fail = true ∧ s.eof = false

/-- The results on the beginning of a text and on the whole of it: the end was met, or they agree so far, or the whole cannot be
read. -/
def Cut {α : Type} (x y : α × IS) : Prop :=
  x.2.eof = true ∨ (x.1 = y.1 ∧ ∃ l r ws, x.2 = ⟨l, false, false, ws⟩ ∧ y.2 = ⟨l ++ r, false, false, ws⟩) ∨ y.2.Stuck

/-- A reader that sees a cut only at the end. -/
structure Cuts {α : Type} (f : IS → α × IS) : Prop where
  eof : ∀ s, s.eof = true → (f s).2.eof = true
  stuck : ∀ s, s.Stuck → (f s).2.Stuck
  cut : ∀ l r ws, Cut (f ⟨l, false, false, ws⟩) (f ⟨l ++ r, false, false, ws⟩)

namespace Cuts
variable {α β : Type}

theorem ret (a : α) : Cuts fun s => (a, s) :=
  ⟨fun _ h => h, fun _ h => h, fun l r ws => .inr (.inl ⟨rfl, l, r, ws, rfl, rfl⟩)⟩

theorem bind {f : IS → α × IS} {g : α → IS → β × IS} (hf : Cuts f) (hg : ∀ a, Cuts (g a)) :
    Cuts fun s => g (f s).1 (f s).2 := by
  refine ⟨fun s h => (hg _).eof _ (hf.eof s h), fun s h => (hg _).stuck _ (hf.stuck s h), fun l r ws => ?_⟩
  rcases hf.cut l r ws with h | ⟨h1, l', r', ws', h2, h3⟩ | h
  · exact .inl ((hg _).eof _ h)
  · simp only [h1, h2, h3]
    exact (hg _).cut l' r' ws'
  · exact .inr (.inr ((hg _).stuck _ h))

/-- A reader that is left when the stream has failed. -/
theorem guard {g : IS → β × IS} (b : β) (hg : Cuts g) : Cuts fun s => if s.fail then (b, s) else g s := by
  refine ⟨fun s h => ?_, fun s h => ?_, fun l r ws => ?_⟩
  · split
    · exact h
    · exact hg.eof s h
  · rw [h.1, if_pos rfl]
    exact h
  · exact hg.cut l r ws

theorem map {f : IS → α × IS} (m : α → β) (hf : Cuts f) : Cuts fun s => (m (f s).1, (f s).2) :=
  bind hf fun a => ret (m a)

/-- A reader that keeps the old value when it fails. -/
theorem keep {f : IS → α × IS} (old : α) (hf : Cuts f) : Cuts fun s => (if (f s).2.fail then old else (f s).1, (f s).2) := by
  refine ⟨hf.eof, hf.stuck, fun l r ws => ?_⟩
  rcases hf.cut l r ws with h | ⟨h1, l', r', ws', h2, h3⟩ | h
  · exact .inl h
  · refine .inr (.inl ⟨?_, l', r', ws', h2, h3⟩)
    simp only [h1, h2, h3]
  · exact .inr (.inr h)

end Cuts

/-! ### The operations -/

theorem sentry_eof {s : IS} (h : s.eof = true) (b : Bool) : s.sentry b = ({ s with fail := true }, false) := by
  simp [IS.sentry, IS.good, h]

theorem sentry_stuck {s : IS} (h : s.Stuck) (b : Bool) : s.sentry b = ({ s with fail := true }, false) := by
  simp [IS.sentry, IS.good, h.1]

theorem takeWhile_cut {p : Nat → Bool} : ∀ (l r : List Nat), l.dropWhile p ≠ [] →
    (l ++ r).takeWhile p = l.takeWhile p ∧ (l ++ r).dropWhile p = l.dropWhile p ++ r
  | [], r, h => by simp at h
  | c :: l, r, h => by
    by_cases hc : p c = true
    · rw [List.dropWhile_cons_of_pos hc] at h
      obtain ⟨e1, e2⟩ := takeWhile_cut l r h
      simp [hc, e1, e2]
    · simp [hc]

theorem sentry_cut (l r : List Nat) (ws b : Bool) :
    (IS.sentry ⟨l, false, false, ws⟩ b = (⟨[], true, true, ws⟩, false)) ∨
      ∃ l', IS.sentry ⟨l, false, false, ws⟩ b = (⟨l', false, false, ws⟩, true) ∧
        IS.sentry ⟨l ++ r, false, false, ws⟩ b = (⟨l' ++ r, false, false, ws⟩, true) := by
  unfold IS.sentry IS.good
  simp only [Bool.not_false, Bool.and_self, Bool.not_true, Bool.false_eq_true, if_false]
  by_cases hw : (ws && !b) = true
  · simp only [hw, if_true]
    by_cases hl : l.dropWhile isSpace = []
    · left
      simp [hl]
    · right
      refine ⟨l.dropWhile isSpace, ?_, ?_⟩
      · simp [hl]
      · rw [(takeWhile_cut l r hl).2]
        simp [hl]
  · simp only [hw]
    exact .inr ⟨l, rfl, rfl⟩

theorem parseSign_cut (l r : List Nat) : l = [] ∨ ((parseSign (l ++ r)).1 = (parseSign l).1 ∧
    (parseSign (l ++ r)).2 = (parseSign l).2 ++ r) := by
  cases l with
  | nil => exact .inl rfl
  | cons c l =>
    right
    rw [List.cons_append]
    simp only [parseSign]
    by_cases h1 : c = 45
    · simp [h1]
    · by_cases h2 : c = 43
      · simp [h2]
      · simp [h1, h2]

theorem cuts_uint (m old : Nat) : Cuts fun s => s.uint m old := by
  refine ⟨fun s h => ?_, fun s h => ?_, fun l r ws => ?_⟩
  · simp only [IS.uint, sentry_eof h]
    exact h
  · simp only [IS.uint, sentry_stuck h]
    exact ⟨rfl, h.2⟩
  · unfold IS.uint
    rcases sentry_cut l r ws false with e | ⟨l', e1, e2⟩
    · rw [e]
      exact .inl rfl
    · rw [e1, e2]
      simp only []
      rcases parseSign_cut l' r with rfl | ⟨s1, s2⟩
      · exact .inl rfl
      · rw [s1, s2]
        generalize (parseSign l').2 = k
        by_cases hk : k.dropWhile isDec = []
        · left
          rw [hk]
          split
          · rfl
          · split <;> rfl
        · obtain ⟨t1, t2⟩ := takeWhile_cut k r hk
          rw [t1, t2]
          split
          · exact .inr (.inr ⟨rfl, by simp [hk]⟩)
          · split
            · exact .inr (.inr ⟨rfl, by simp [hk]⟩)
            · refine .inr (.inl ⟨rfl, k.dropWhile isDec, r, ws, ?_, ?_⟩) <;> simp [hk]

theorem cuts_bool (old : Bool) : Cuts fun s => s.bool old := by
  refine ⟨fun s h => ?_, fun s h => ?_, fun l r ws => ?_⟩
  · simp only [IS.bool, sentry_eof h]
    exact h
  · simp only [IS.bool, sentry_stuck h]
    exact ⟨rfl, h.2⟩
  · unfold IS.bool
    rcases sentry_cut l r ws false with e | ⟨l', e1, e2⟩
    · rw [e]
      exact .inl rfl
    · rw [e1, e2]
      simp only []
      rcases parseSign_cut l' r with rfl | ⟨s1, s2⟩
      · exact .inl rfl
      · rw [s1, s2]
        generalize (parseSign l').2 = k
        by_cases hk : k.dropWhile isDec = []
        · left
          rw [hk]
          split
          · rfl
          · split
            · rfl
            · split <;> rfl
        · obtain ⟨t1, t2⟩ := takeWhile_cut k r hk
          rw [t1, t2]
          split
          · exact .inr (.inr ⟨rfl, by simp [hk]⟩)
          · split
            · refine .inr (.inl ⟨rfl, k.dropWhile isDec, r, ws, ?_, ?_⟩) <;> simp [hk]
            · split
              · refine .inr (.inl ⟨rfl, k.dropWhile isDec, r, ws, ?_, ?_⟩) <;> simp [hk]
              · exact .inr (.inr ⟨rfl, by simp [hk]⟩)

theorem cuts_char (old : Nat) : Cuts fun s => s.char old := by
  refine ⟨fun s h => ?_, fun s h => ?_, fun l r ws => ?_⟩
  · simp only [IS.char, sentry_eof h]
    exact h
  · simp only [IS.char, sentry_stuck h]
    exact ⟨rfl, h.2⟩
  · unfold IS.char
    rcases sentry_cut l r ws false with e | ⟨l', e1, e2⟩
    · rw [e]
      exact .inl rfl
    · rw [e1, e2]
      cases l' with
      | nil => exact .inl rfl
      | cons c l' => exact .inr (.inl ⟨rfl, l', r, ws, rfl, rfl⟩)

theorem cuts_str (old : List Nat) : Cuts fun s => s.str old := by
  refine ⟨fun s h => ?_, fun s h => ?_, fun l r ws => ?_⟩
  · simp only [IS.str, sentry_eof h]
    exact h
  · simp only [IS.str, sentry_stuck h]
    exact ⟨rfl, h.2⟩
  · unfold IS.str
    rcases sentry_cut l r ws false with e | ⟨l', e1, e2⟩
    · rw [e]
      exact .inl rfl
    · rw [e1, e2]
      simp only []
      by_cases hk : (l'.dropWhile fun c => !isSpace c) = []
      · exact .inl (by simp only [hk]; rfl)
      · obtain ⟨t1, t2⟩ := takeWhile_cut l' r hk
        rw [t1, t2]
        by_cases hw : (l'.takeWhile fun c => !isSpace c) = []
        · refine .inr (.inr ⟨?_, ?_⟩)
          · simp [hw]
          · simp [hk]
        · refine .inr (.inl ⟨rfl, l'.dropWhile fun c => !isSpace c, r, ws, ?_, ?_⟩)
          · simp [hk, hw]
          · simp [hk, hw]

theorem cuts_ignore (d : Nat) : Cuts fun s => ((), s.ignore d) := by
  refine ⟨fun s h => ?_, fun s h => ?_, fun l r ws => ?_⟩
  · simp only [IS.ignore, sentry_eof h]
    exact h
  · simp only [IS.ignore, sentry_stuck h]
    exact ⟨rfl, h.2⟩
  · unfold IS.ignore
    rcases sentry_cut l r ws true with e | ⟨l', e1, e2⟩
    · rw [e]
      exact .inl rfl
    · rw [e1, e2]
      simp only []
      by_cases hk : (l'.dropWhile fun c => decide (c ≠ d)) = []
      · exact .inl (by rw [hk])
      · rw [(takeWhile_cut l' r hk).2]
        generalize (l'.dropWhile fun c => decide (c ≠ d)) = k at hk
        cases k with
        | nil => exact absurd rfl hk
        | cons c k => exact .inr (.inl ⟨rfl, k, r, ws, rfl, rfl⟩)

theorem cuts_nums : ∀ n, Cuts (numsRead n)
  | 0 => Cuts.ret []
  | n + 1 => Cuts.bind (g := fun a s => (a :: (numsRead n s).1, (numsRead n s).2)) (cuts_uint _ _)
      fun a => (cuts_nums n).map fun l => a :: l

theorem cuts_alts : ∀ n, Cuts (altsRead n)
  | 0 => Cuts.ret []
  | n + 1 => Cuts.bind (g := fun b s => ((b, (s.uint (W32 - 1) 0).1) :: (altsRead n (s.uint (W32 - 1) 0).2).1,
      (altsRead n (s.uint (W32 - 1) 0).2).2)) (cuts_bool _) fun b =>
        Cuts.bind (g := fun a s => ((b, a) :: (altsRead n s).1, (altsRead n s).2)) (cuts_uint _ _)
          fun a => (cuts_alts n).map fun l => (b, a) :: l

theorem cuts_value : ∀ sh, Cuts (valueRead sh)
  | .num => (cuts_uint _ _).map Value.num
  | .arr n => (cuts_nums n).map Value.arr
  | .vec => Cuts.bind (g := fun a s => if s.fail then (Value.arr [], s) else (Value.arr (numsRead a s).1, (numsRead a s).2)) (cuts_uint _ _)
      fun a => Cuts.guard _ ((cuts_nums a).map Value.arr)
  | .alt n => (cuts_alts n).map Value.alt

theorem cuts_values (sh : Shape) : ∀ n, Cuts (valuesRead sh n)
  | 0 => Cuts.ret []
  | n + 1 => Cuts.bind (g := fun a s => (a :: (valuesRead sh n s).1, (valuesRead sh n s).2)) (cuts_value sh)
      fun a => (cuts_values sh n).map fun l => a :: l

theorem cuts_node : Cuts nodeRead :=
  Cuts.bind (cuts_uint (W32 - 1) 0) fun x => Cuts.bind (cuts_char 0) fun e1 => Cuts.bind (cuts_uint (W32 - 1) 0) fun pos =>
    Cuts.bind (cuts_char 0) fun e2 => Cuts.bind (cuts_uint (W32 - 1) 0) fun sz => Cuts.bind (cuts_char 0) fun e3 =>
      Cuts.bind (cuts_bool false) fun term => (cuts_char 0).map fun e4 => NodeVars.mk ⟨x, pos, sz, term⟩ e1 e2 e3 e4

theorem cuts_wlines (old : WordLines) : Cuts fun s => wlinesRead s old :=
  Cuts.keep old <| Cuts.bind (cuts_uint (W32 - 1) 0) fun a => Cuts.bind (cuts_uint (W32 - 1) 0) fun c =>
    Cuts.bind (cuts_uint (W32 - 1) 0) fun m => (cuts_uint (W32 - 1) 0).map fun b => WordLines.mk (a % 8) (c % 8) (m % 8) (b % 8)

theorem cuts_rviews : ∀ (n : Nat) (wm fm : StrMap), Cuts fun s =>
    (((rviewsLoop n s wm fm).1, (rviewsLoop n s wm fm).2.2), (rviewsLoop n s wm fm).2.1)
  | 0, wm, fm => Cuts.ret ([], wm, fm)
  | n + 1, wm, fm => by
    have h : Cuts fun s : IS =>
        if (((s.str []).2.str []).2.ignore 10).fail then
          ((List.replicate (n + 1) (⟨0, 0⟩ : View), wm, fm), ((s.str []).2.str []).2.ignore 10)
        else
          let w := (s.str []).1
          let f := ((s.str []).2.str []).1
          let r := rviewsLoop n (((s.str []).2.str []).2.ignore 10) (intern wm w).2 (intern fm f).2
          ((⟨(intern wm w).1, (intern fm f).1⟩ :: r.1, r.2.2), r.2.1) :=
      Cuts.bind (cuts_str []) fun w => Cuts.bind (cuts_str []) fun f => Cuts.bind (cuts_ignore 10) fun _ =>
        Cuts.guard _ ((cuts_rviews n (intern wm w).2 (intern fm f).2).map
          fun r => (⟨(intern wm w).1, (intern fm f).1⟩ :: r.1, r.2))
    refine cast (congrArg Cuts ?_) h
    funext s
    rw [rviewsLoop]
    split <;> rename_i hf
    · simp only [hf, if_true]
    · simp only [hf]
      rfl

/-- `is >> std::ws` as `tablesRead` uses it. -/
theorem sentry_end_cut (s p : IS) (h : Cut ((), p) ((), s))
    (he : (if s.fail then s else (s.sentry false).1).eof = true) :
    (if p.fail then p else (p.sentry false).1).eof = true := by
  rcases h with h | ⟨_, l, r, ws, h1, h2⟩ | h
  · simp only at h
    split
    · exact h
    · rw [sentry_eof h]
      exact h
  · simp only at h1 h2
    subst h1 h2
    simp only [Bool.false_eq_true, if_false] at he ⊢
    rcases sentry_cut l r ws false with e | ⟨l', e1, e2⟩
    · rw [e]
    · rw [e2] at he
      simp at he
  · simp only at h
    rw [h.1, if_pos rfl, h.2] at he
    simp at he

/-! ### The files -/

theorem Cut.step {α β : Type} {f : IS → β × IS} (hf : Cuts f) {x y : α × IS} (h : Cut x y) : Cut (f x.2) (f y.2) := by
  rcases h with h | ⟨_, l, r, ws, h1, h2⟩ | h
  · exact .inl (hf.eof _ h)
  · rw [h1, h2]
    exact hf.cut l r ws
  · exact .inr (.inr (hf.stuck _ h))

theorem tablesRead_cut : ∀ (fs : List (Feat × Policy)) (m n : Nat) (p s : IS), Cut (m, p) (n, s) →
    (tablesRead n fs s).2.eof = true → (tablesRead m fs p).2.eof = true
  | [], m, n, p, s, h, he => by
    refine sentry_end_cut s p ?_ he
    rcases h with h | ⟨_, h⟩ | h
    · exact .inl h
    · exact .inr (.inl ⟨rfl, h⟩)
    · exact .inr (.inr h)
  | f :: fs, m, n, p, s, h, he => by
    rw [tablesRead] at he ⊢
    refine tablesRead_cut fs m n _ _ ?_ he
    have hg : ∀ k, Cuts fun s => if s.fail then (([] : List Value), s) else valuesRead f.1.shape k s :=
      fun k => Cuts.guard _ (cuts_values _ k)
    rcases h with h | ⟨h0, l, r, ws, h1, h2⟩ | h
    · exact .inl ((hg m).eof _ h)
    · simp only at h0 h1 h2
      subst h0 h1 h2
      rcases (hg m).cut l r ws with h | ⟨_, h⟩ | h
      · exact .inl h
      · exact .inr (.inl ⟨rfl, h⟩)
      · exact .inr (.inr h)
    · exact .inr (.inr ((hg n).stuck _ h))

theorem datasRead_cut (l r : List Nat) (h : (datasRead (IS.of (l ++ r))).2.eof = true) :
    (datasRead (IS.of l)).2.eof = true :=
  tablesRead_cut _ _ _ _ _ ((cuts_uint maxS 0).cut l r true) h

theorem char_eof {s : IS} {o : Nat} (h : (s.char o).2.eof = true) : (s.char o).2.fail = true := by
  obtain ⟨r, e, f, w⟩ := s
  cases e with
  | true => simp [IS.char, IS.sentry, IS.good]
  | false =>
    cases f with
    | true => simp [IS.char, IS.sentry, IS.good]
    | false =>
      unfold IS.char at h ⊢
      rcases sentry_cut r [] w false with hs | ⟨l', hs, _⟩
      · rw [hs]
      · rw [hs] at h ⊢
        cases l' with
        | nil => rfl
        | cons c t => simp at h

theorem dictLoop_acc : ∀ (fuel : Nat) (s : IS) (acc ns : List FNode) (s' : IS),
    dictLoop fuel s acc = .ok (.nodes ns, s') → acc <+: ns
  | 0, _, _, _, _, h => by simp [dictLoop] at h
  | fuel + 1, s, acc, ns, s', h => by
    rw [dictLoop] at h
    split at h
    · simp only [Res.ok.injEq, Prod.mk.injEq, DictEnd.nodes.injEq] at h
      rw [h.1]
      exact List.prefix_refl _
    · split at h
      · simp at h
      · exact (List.prefix_append _ _).trans (dictLoop_acc fuel _ _ ns s' h)

/-- A dictionary that is read without an exception: of a beginning of the file a beginning of the nodes is read. -/
theorem dictLoop_cut : ∀ (fuel fuel' : Nat) (l r : List Nat) (acc ns : List FNode) (ws : Bool) (s' : IS), l.length < fuel →
    dictLoop fuel' ⟨l ++ r, false, false, ws⟩ acc = .ok (.nodes ns, s') → s'.eof = true →
    ∃ ms p', dictLoop fuel ⟨l, false, false, ws⟩ acc = .ok (.nodes ms, p') ∧ p'.eof = true ∧ ms <+: ns
  | 0, _, _, _, _, _, _, _, h, _, _ => by omega
  | _ + 1, 0, _, _, _, _, _, _, _, h, _ => by simp [dictLoop] at h
  | fuel + 1, fuel' + 1, l, r, acc, ns, ws, s', hl, h, he => by
    have hacc := dictLoop_acc _ _ _ _ _ h
    rw [dictLoop] at h ⊢
    rcases cuts_node.cut l r ws with hc | ⟨h0, l', r', ws', h1, h2⟩ | hc
    · have hf : (nodeRead ⟨l, false, false, ws⟩).2.fail = true := char_eof hc
      rw [if_pos hf]
      exact ⟨acc, _, rfl, hc, hacc⟩
    · have hlt : l'.length < l.length := by
        have := nodeRead_lt (s := ⟨l, false, false, ws⟩) (by rw [h1])
        rwa [h1] at this
      rw [h2] at h
      rw [h1]
      rw [h0]
      simp only [Bool.false_eq_true, if_false] at h ⊢
      split at h
      · simp at h
      · rename_i hb
        rw [if_neg hb]
        exact dictLoop_cut fuel fuel' l' r' _ ns ws' s' (by omega) h he
    · rw [if_pos hc.1] at h
      simp only [Res.ok.injEq, Prod.mk.injEq] at h
      rw [← h.2, hc.2] at he
      simp at he

/-- One pass over the file of positions. -/
theorem cuts_entry : Cuts fun s : IS =>
    (((s.str []).1, (wlinesRead (s.str []).2 ⟨0, 0, 0, 0⟩).1), (wlinesRead (s.str []).2 ⟨0, 0, 0, 0⟩).2) :=
  Cuts.bind (cuts_str []) fun w => (cuts_wlines ⟨0, 0, 0, 0⟩).map fun l => (w, l)

theorem str_eof {s : IS} (h : s.eof = true) (o : List Nat) : (s.str o).2.eof = true ∧ (s.str o).2.fail = true := by
  simp only [IS.str, sentry_eof h]
  exact ⟨h, trivial⟩

theorem uint_eof_fail {s : IS} (h : s.eof = true ∧ s.fail = true) (m o : Nat) :
    (s.uint m o).2.eof = true ∧ (s.uint m o).2.fail = true := by
  simp only [IS.uint, sentry_eof h.1]
  exact ⟨h.1, trivial⟩

theorem wwordsLoop_end {s : IS} (h : s.eof = true) (fuel : Nat) (acc : List WWordLines) :
    ∃ p, wwordsLoop (fuel + 1) s acc = .ok (acc, p) ∧ p.eof = true := by
  have hw : (wlinesRead (s.str []).2 ⟨0, 0, 0, 0⟩).2.eof = true ∧ (wlinesRead (s.str []).2 ⟨0, 0, 0, 0⟩).2.fail = true :=
    uint_eof_fail (uint_eof_fail (uint_eof_fail (uint_eof_fail (str_eof h _) _ _) _ _) _ _) _ _
  rw [wwordsLoop]
  simp only [hw.2, if_true]
  exact ⟨_, rfl, hw.1⟩

theorem wlinesRead_lt {s : IS} {o : WordLines} (h : (wlinesRead s o).2.fail = false) :
    (wlinesRead s o).2.rest.length < s.rest.length := by
  unfold wlinesRead at h ⊢
  simp only [] at h ⊢
  have h4 := uint_lt h
  have h3 := uint_lt h4.2
  have h2 := uint_lt h3.2
  have h1 := uint_lt h2.2
  omega

theorem wwordsLoop_cut : ∀ (fuel fuel' : Nat) (l r : List Nat) (acc es : List WWordLines) (ws : Bool) (s' : IS),
    l.length < fuel → wwordsLoop fuel' ⟨l ++ r, false, false, ws⟩ acc = .ok (es, s') → s'.eof = true →
    ∃ ms p', wwordsLoop fuel ⟨l, false, false, ws⟩ acc = .ok (ms, p') ∧ p'.eof = true
  | 0, _, _, _, _, _, _, _, h, _, _ => by omega
  | _ + 1, 0, _, _, _, _, _, _, _, h, _ => by simp [wwordsLoop] at h
  | fuel + 1, fuel' + 1, l, r, acc, ns, ws, s', hl, h, he => by
    rw [wwordsLoop] at h ⊢
    have hlt : (wlinesRead (IS.str ⟨l, false, false, ws⟩ []).2 ⟨0, 0, 0, 0⟩).2.fail = false →
        (wlinesRead (IS.str ⟨l, false, false, ws⟩ []).2 ⟨0, 0, 0, 0⟩).2.rest.length < l.length := by
      intro hf
      exact Nat.lt_of_lt_of_le (wlinesRead_lt hf) (str_mono ⟨l, false, false, ws⟩ []).1
    rcases cuts_entry.cut l r ws with hc | ⟨h0, l', r', ws', h1, h2⟩ | hc
    · simp only [] at hc ⊢
      split
      · exact ⟨_, _, rfl, hc⟩
      · rename_i hf
        have := hlt (by simpa using hf)
        obtain ⟨f, rfl⟩ : ∃ f, fuel = f + 1 := ⟨fuel - 1, by omega⟩
        obtain ⟨p, e, hp⟩ := wwordsLoop_end hc f (if (IS.str ⟨l, false, false, ws⟩ []).1.length ≤ 8 then
          acc ++ [⟨(IS.str ⟨l, false, false, ws⟩ []).1, (wlinesRead (IS.str ⟨l, false, false, ws⟩ []).2 ⟨0, 0, 0, 0⟩).1⟩] else acc)
        exact ⟨_, p, e, hp⟩
    · simp only [Prod.mk.injEq] at h0 h1 h2
      rw [h1] at hlt
      simp only [h0.1, h0.2, h1, h2, Bool.false_eq_true, if_false] at h ⊢
      exact wwordsLoop_cut fuel fuel' l' r' _ ns ws' s' (by have := hlt rfl; simp only at this; omega) h he
    · simp only [] at hc h
      rw [if_pos hc.1] at h
      simp only [Res.ok.injEq, Prod.mk.injEq] at h
      rw [← h.2, hc.2] at he
      simp at he

/-- One pass over the glyph file; `none` is the end. -/
def glyphPass (s : IS) (wm fm : StrMap) : Option (List View × StrMap × StrMap) × IS :=
  if (s.ignore 10).fail then (none, s.ignore 10)
  else
    if ((s.ignore 10).uint (W32 - 1) 0).2.fail then (none, ((s.ignore 10).uint (W32 - 1) 0).2)
    else
      let r := rviewsLoop ((s.ignore 10).uint (W32 - 1) 0).1 ((s.ignore 10).uint (W32 - 1) 0).2 wm fm
      (some (r.1, r.2.2), r.2.1)

theorem cuts_glyphPass (wm fm : StrMap) : Cuts fun s => glyphPass s wm fm :=
  Cuts.bind (f := fun s => ((), s.ignore 10)) (cuts_ignore 10) fun _ => Cuts.guard none <|
    Cuts.bind (cuts_uint (W32 - 1) 0) fun n => Cuts.guard none ((cuts_rviews n wm fm).map some)

theorem rglyphsLoop_pass (fuel : Nat) (s : IS) (wm fm : StrMap) (acc : List (List View)) :
    rglyphsLoop (fuel + 1) s wm fm acc =
      match glyphPass s wm fm with
      | (none, s) => .ok (acc, s, wm, fm)
      | (some (vs, wm, fm), s) => rglyphsLoop fuel s wm fm (acc ++ [vs]) := by
  rw [rglyphsLoop]
  unfold glyphPass
  simp only []
  split
  · rfl
  · split <;> rfl

theorem ignore_le (s : IS) (d : Nat) : (s.ignore d).rest.length ≤ s.rest.length := by
  have h := sentry_le s true
  unfold IS.ignore
  rcases e : s.sentry true with ⟨s', b⟩
  rw [e] at h
  cases b with
  | false => exact h
  | true =>
    simp only [] at h ⊢
    have hd := dropWhile_length_le (p := fun c => decide (c ≠ d)) s'.rest
    split
    · simp
    · rename_i r hr
      rw [hr, List.length_cons] at hd
      simp only []
      omega

theorem rviewsLoop_le : ∀ (n : Nat) (s : IS) (wm fm : StrMap), (rviewsLoop n s wm fm).2.1.rest.length ≤ s.rest.length
  | 0, s, wm, fm => Nat.le_refl _
  | n + 1, s, wm, fm => by
    have h0 : (((s.str []).2.str []).2.ignore 10).rest.length ≤ s.rest.length :=
      Nat.le_trans (ignore_le _ _) (Nat.le_trans (str_mono _ _).1 (str_mono _ _).1)
    rw [rviewsLoop]
    simp only []
    split
    · exact h0
    · exact Nat.le_trans (rviewsLoop_le n _ _ _) h0

theorem glyphPass_lt {s : IS} {wm fm : StrMap} {x : List View × StrMap × StrMap} (h : (glyphPass s wm fm).1 = some x) :
    (glyphPass s wm fm).2.rest.length < s.rest.length := by
  unfold glyphPass at h ⊢
  split at h
  · simp at h
  · rename_i h1
    rw [if_neg h1]
    split at h
    · simp at h
    · rename_i h2
      rw [if_neg h2]
      refine Nat.lt_of_le_of_lt (rviewsLoop_le _ _ _ _) ?_
      exact Nat.lt_of_lt_of_le (uint_lt (by simpa using h2)).1 (ignore_le _ _)

theorem glyphPass_none {s : IS} {wm fm : StrMap} (h : s.eof = true) :
    (glyphPass s wm fm).1 = none ∧ (glyphPass s wm fm).2.eof = true := by
  have e : s.ignore 10 = { s with fail := true } := by simp only [IS.ignore, sentry_eof h]
  simp only [glyphPass, e, if_true]
  exact ⟨trivial, h⟩

theorem glyphPass_fail {s : IS} {wm fm : StrMap} (h : (glyphPass s wm fm).1 = none) : (glyphPass s wm fm).2.fail = true := by
  unfold glyphPass at h ⊢
  split at h
  · rename_i h1
    simp only [h1, if_true]
  · rename_i h1
    rw [if_neg h1]
    split at h
    · rename_i h2
      simp only [h2, if_true]
    · simp at h

theorem rglyphsLoop_acc : ∀ (fuel : Nat) (s : IS) (wm fm : StrMap) (acc : List (List View)) {x},
    rglyphsLoop fuel s wm fm acc = .ok x → acc.length ≤ x.1.length
  | 0, _, _, _, _, _, h => by simp [rglyphsLoop] at h
  | fuel + 1, s, wm, fm, acc, x, h => by
    rw [rglyphsLoop_pass] at h
    split at h
    · simp only [Res.ok.injEq] at h
      subst h
      exact Nat.le_refl _
    · have := rglyphsLoop_acc fuel _ _ _ _ h
      simp only [List.length_append, List.length_singleton] at this
      omega

theorem rglyphsLoop_cut : ∀ (fuel fuel' : Nat) (l r : List Nat) (wm fm : StrMap) (acc : List (List View)) (ws : Bool) {x},
    l.length < fuel → rglyphsLoop fuel' ⟨l ++ r, false, false, ws⟩ wm fm acc = .ok x → x.2.1.eof = true →
    ∃ y, rglyphsLoop fuel ⟨l, false, false, ws⟩ wm fm acc = .ok y ∧ y.2.1.eof = true
  | 0, _, _, _, _, _, _, _, _, h, _, _ => by omega
  | _ + 1, 0, _, _, _, _, _, _, _, _, h, _ => by simp [rglyphsLoop] at h
  | fuel + 1, fuel' + 1, l, r, wm, fm, acc, ws, x, hl, h, he => by
    have hlt := @glyphPass_lt ⟨l, false, false, ws⟩ wm fm
    have hn := @glyphPass_fail ⟨l, false, false, ws⟩ wm fm
    have hm := @glyphPass_fail ⟨l ++ r, false, false, ws⟩ wm fm
    have hcut := (cuts_glyphPass wm fm).cut l r ws
    rw [rglyphsLoop_pass] at h ⊢
    rcases ep : glyphPass ⟨l, false, false, ws⟩ wm fm with ⟨a, p⟩
    rcases es : glyphPass ⟨l ++ r, false, false, ws⟩ wm fm with ⟨b, s⟩
    rw [ep] at hlt hn hcut
    rw [es] at hm hcut h
    rcases hcut with hc | ⟨h0, l', r', ws', h1, h2⟩ | hc
    · simp only at hc
      cases a with
      | none => exact ⟨_, rfl, hc⟩
      | some v =>
        obtain ⟨vs, wm', fm'⟩ := v
        have h3 := hlt rfl
        simp only [] at h3 ⊢
        obtain ⟨f, rfl⟩ : ∃ f, fuel = f + 1 := ⟨fuel - 1, by omega⟩
        rw [rglyphsLoop_pass]
        obtain ⟨e1, e2⟩ := @glyphPass_none p wm' fm' hc
        rcases eq : glyphPass p wm' fm' with ⟨c, q⟩
        rw [eq] at e1 e2
        simp only at e1 e2
        subst e1
        exact ⟨_, rfl, e2⟩
    · simp only at h0 h1 h2
      subst h0 h1 h2
      cases a with
      | none =>
        have := hn rfl
        simp at this
      | some v =>
        obtain ⟨vs, wm', fm'⟩ := v
        have h3 := hlt rfl
        simp only [] at h3 h ⊢
        exact rglyphsLoop_cut fuel fuel' l' r' wm' fm' _ ws' (by omega) h he
    · simp only at hc
      have he' : x.2.1.Stuck := by
        cases b with
        | none =>
          simp only [Res.ok.injEq] at h
          subst h
          exact hc
        | some v =>
          obtain ⟨vs, wm', fm'⟩ := v
          simp only [] at h
          cases fuel' with
          | zero => simp [rglyphsLoop] at h
          | succ f =>
            rw [rglyphsLoop_pass] at h
            have e : s.ignore 10 = { s with fail := true } := by simp only [IS.ignore, sentry_stuck hc]
            simp only [glyphPass, e, if_true] at h
            simp only [Res.ok.injEq] at h
            subst h
            exact ⟨rfl, hc.2⟩
      rw [he'.2] at he
      simp at he

end Ppocr

import Verif.Spec.Datas

/-! # Helper lemmas: contexts and tables -/

namespace Ppocr
open Spec

/-- The image a sub-context of policy `p` is given. -/
def pick (p : Policy) (i r : Image) : Image :=
  match p with
  | .img => i
  | .img90 => r

/-- Every sub-context in use holds the value of the current image. -/
structure CtxInv (c : Ctxs) (i r : Image) : Prop where
  tops : ∀ f p, (c.tops f p).loaded = true → ∃ v, (c.tops f p).val = some v ∧ f.compute (pick p i r) = .ok v
  zones : ∀ p, (c.zones p).loaded = true → ∃ v, (c.zones p).val = some v ∧ countZone (pick p i r) = .ok v

theorem ctxInv_reset (c : Ctxs) (i r : Image) : CtxInv c.reset i r :=
  ⟨fun _ _ h => absurd h (by simp [Ctxs.reset, Cache.reset]),
   fun _ h => absurd h (by simp [Ctxs.reset, Cache.reset])⟩

theorem cache_compute {V : Type} (f : Image → Res V) (img : Image) (c : Cache V)
    (h : c.loaded = true → ∃ v, c.val = some v ∧ f img = .ok v) :
    (∃ v, c.compute f img = .ok (v, ⟨true, some v⟩) ∧ f img = .ok v) ∨
      (∀ v, f img ≠ .ok v) ∧ c.compute f img = (f img).bind fun v => .ok (v, ⟨true, some v⟩) := by
  unfold Cache.compute
  cases hl : c.loaded with
  | true =>
    obtain ⟨v, h1, h2⟩ := h hl
    left
    refine ⟨v, ?_, h2⟩
    rw [if_pos rfl, h1]
    cases c
    simp only at hl h1
    rw [hl, h1]
  | false =>
    rw [if_neg (by simp)]
    cases hf : f img with
    | ok v => left; exact ⟨v, rfl, rfl⟩
    | throw => right; exact ⟨by simp, rfl⟩
    | abort => right; exact ⟨by simp, rfl⟩
    | ub => right; exact ⟨by simp, rfl⟩
    | diverge => right; exact ⟨by simp, rfl⟩

/-- `x` is `y` together with a context that is still consistent. -/
def Agrees (i r : Image) (x : Res (Value × Ctxs)) (y : Res Value) : Prop :=
  (∃ v c, x = .ok (v, c) ∧ y = .ok v ∧ CtxInv c i r) ∨
    ((∀ v, y ≠ .ok v) ∧ x = y.bind fun v => .ok (v, Ctxs.fresh))

theorem agrees_pure {i r : Image} {c : Ctxs} (h : CtxInv c i r) (y : Res Value) :
    Agrees i r (y.bind fun v => .ok (v, c)) y := by
  cases y with
  | ok v => exact Or.inl ⟨v, c, rfl, rfl, h⟩
  | throw => exact Or.inr ⟨by simp, rfl⟩
  | abort => exact Or.inr ⟨by simp, rfl⟩
  | ub => exact Or.inr ⟨by simp, rfl⟩
  | diverge => exact Or.inr ⟨by simp, rfl⟩

theorem agrees_top {i r : Image} {c : Ctxs} (h : CtxInv c i r) (f : TopFn) (p : Policy)
    (k : TopBottom → Res Nat) :
    Agrees i r (c.top f p (pick p i r) k) (do
      let t ← f.compute (pick p i r)
      let v ← k t
      return .num v) := by
  unfold Ctxs.top
  rcases cache_compute f.compute (pick p i r) (c.tops f p) (h.tops f p) with ⟨t, h1, h2⟩ | ⟨h1, h2⟩
  · rw [h1, h2]
    simp only [Res.ok_bind]
    cases hk : k t with
    | ok v =>
      refine Or.inl ⟨_, _, rfl, rfl, ?_, h.zones⟩
      intro g q hg
      simp only at hg ⊢
      by_cases e : g = f ∧ q = p
      · rw [if_pos e] at hg ⊢
        obtain ⟨rfl, rfl⟩ := e
        exact ⟨t, rfl, h2⟩
      · rw [if_neg e] at hg ⊢
        exact h.tops g q hg
    | throw => exact Or.inr ⟨by simp [bind, Res.bind], rfl⟩
    | abort => exact Or.inr ⟨by simp [bind, Res.bind], rfl⟩
    | ub => exact Or.inr ⟨by simp [bind, Res.bind], rfl⟩
    | diverge => exact Or.inr ⟨by simp [bind, Res.bind], rfl⟩
  · rw [h2]
    cases hf : f.compute (pick p i r) with
    | ok v => exact absurd hf (h1 v)
    | throw => exact Or.inr ⟨by simp [bind, Res.bind], rfl⟩
    | abort => exact Or.inr ⟨by simp [bind, Res.bind], rfl⟩
    | ub => exact Or.inr ⟨by simp [bind, Res.bind], rfl⟩
    | diverge => exact Or.inr ⟨by simp [bind, Res.bind], rfl⟩

theorem agrees_zone {i r : Image} {c : Ctxs} (h : CtxInv c i r) (p : Policy)
    (k : ZoneInfo → Res (List Nat)) :
    Agrees i r (c.zone p (pick p i r) k) (do
      let t ← countZone (pick p i r)
      let v ← k t
      return .arr v) := by
  unfold Ctxs.zone
  rcases cache_compute countZone (pick p i r) (c.zones p) (h.zones p) with ⟨t, h1, h2⟩ | ⟨h1, h2⟩
  · rw [h1, h2]
    simp only [Res.ok_bind]
    cases hk : k t with
    | ok v =>
      refine Or.inl ⟨_, _, rfl, rfl, h.tops, ?_⟩
      intro q hg
      simp only at hg ⊢
      by_cases e : q = p
      · rw [if_pos e] at hg ⊢
        subst e
        exact ⟨t, rfl, h2⟩
      · rw [if_neg e] at hg ⊢
        exact h.zones q hg
    | throw => exact Or.inr ⟨by simp [bind, Res.bind], rfl⟩
    | abort => exact Or.inr ⟨by simp [bind, Res.bind], rfl⟩
    | ub => exact Or.inr ⟨by simp [bind, Res.bind], rfl⟩
    | diverge => exact Or.inr ⟨by simp [bind, Res.bind], rfl⟩
  · rw [h2]
    cases hf : countZone (pick p i r) with
    | ok v => exact absurd hf (h1 v)
    | throw => exact Or.inr ⟨by simp [bind, Res.bind], rfl⟩
    | abort => exact Or.inr ⟨by simp [bind, Res.bind], rfl⟩
    | ub => exact Or.inr ⟨by simp [bind, Res.bind], rfl⟩
    | diverge => exact Or.inr ⟨by simp [bind, Res.bind], rfl⟩

theorem agrees_top2 {i r : Image} {c : Ctxs} (h : CtxInv c i r) (f : TopFn) (p : Policy) (z : Bool)
    (k : TopBottom → Res Nat) :
    Agrees i r (c.top2 f p (pick p i r) z k) (if z then .ok (.num 50) else do
      let t ← f.compute (pick p i r)
      let v ← k t
      return .num v) := by
  unfold Ctxs.top2
  cases z with
  | true => exact Or.inl ⟨_, _, rfl, rfl, h⟩
  | false => exact agrees_top h f p k

theorem agrees_bind {α : Type} {i r : Image} (x : Res α) (f : α → Res (Value × Ctxs)) (g : α → Res Value)
    (h : ∀ a, x = .ok a → Agrees i r (f a) (g a)) :
    Agrees i r (x >>= f) (x >>= g) := by
  cases x with
  | ok a => exact h a rfl
  | throw => exact Or.inr ⟨by simp [bind, Res.bind], rfl⟩
  | abort => exact Or.inr ⟨by simp [bind, Res.bind], rfl⟩
  | ub => exact Or.inr ⟨by simp [bind, Res.bind], rfl⟩
  | diverge => exact Or.inr ⟨by simp [bind, Res.bind], rfl⟩

theorem loadIn_agrees (f : Feat) (p : Policy) (i r : Image) (c : Ctxs) (h : CtxInv c i r) :
    Agrees i r (f.loadIn p (pick p i r) (pick p r i) c) (f.load (pick p i r) (pick p r i)) := by
  have assoc : ∀ (x : Res Nat), (do return .num (← x) : Res Value) = x.bind fun v => .ok (.num v) := fun _ => rfl
  cases f with
  | hdirection =>
    have := agrees_top h .hdir p ratio200
    unfold Feat.loadIn Feat.load hdirectionLoad
    simpa [TopFn.compute] using this
  | hgravity =>
    have := agrees_top h .hgrav p ratio200
    unfold Feat.loadIn Feat.load hgravityLoad
    simpa [TopFn.compute] using this
  | dvdirection =>
    have := agrees_top h .dvdir p ratio200
    unfold Feat.loadIn Feat.load dvdirectionLoad
    simpa [TopFn.compute] using this
  | dvgravity =>
    have := agrees_top h .dvgrav p ratio200
    unfold Feat.loadIn Feat.load dvgravityLoad
    simpa [TopFn.compute] using this
  | hdirection2 =>
    unfold Feat.loadIn Feat.load hdirection2Load
    simp only
    have := agrees_top2 h .hdir p (decide ((pick p i r).bounds.h / 2 = 0))
      (fun t => percent (umul ((pick p i r).bounds.h / 2) (pick p i r).bounds.w) t
        (umul (umul ((pick p i r).bounds.h / 2) (pick p i r).bounds.w) 2))
    by_cases h0 : (pick p i r).bounds.h / 2 = 0
    · rw [decide_eq_true h0] at this ⊢
      rw [if_pos h0]
      exact this
    · rw [decide_eq_false h0] at this ⊢
      rw [if_neg h0]
      simpa [TopFn.compute] using this
  | hgravity2 =>
    unfold Feat.loadIn Feat.load hgravity2Load
    simp only
    have := agrees_top2 h .hgrav p (decide ((pick p i r).bounds.h / 2 = 0))
      (fun t => percent (umul (umul ((pick p i r).bounds.h / 2) (uadd ((pick p i r).bounds.h / 2) 1) / 2)
          (pick p i r).bounds.w) t
        (umul (umul (umul ((pick p i r).bounds.h / 2) (uadd ((pick p i r).bounds.h / 2) 1) / 2)
          (pick p i r).bounds.w) 2))
    by_cases h0 : (pick p i r).bounds.h / 2 = 0
    · rw [decide_eq_true h0] at this ⊢
      rw [if_pos h0]
      exact this
    · rw [decide_eq_false h0] at this ⊢
      rw [if_neg h0]
      simpa [TopFn.compute] using this
  | dvdirection2 =>
    unfold Feat.loadIn Feat.load dvdirection2Load
    simp only [bind_assoc]
    apply agrees_bind
    intro a _
    have := agrees_top2 h .dvdir p (decide (a = 0)) (fun t => percent (uadd t.top t.bottom) t a)
    by_cases h0 : a = 0
    · rw [decide_eq_true h0] at this ⊢
      rw [if_pos h0]
      exact this
    · rw [decide_eq_false h0] at this ⊢
      rw [if_neg h0]
      simpa [TopFn.compute] using this
  | dvgravity2 =>
    unfold Feat.loadIn Feat.load dvgravity2Load
    simp only [bind_assoc]
    apply agrees_bind
    intro a _
    have := agrees_top2 h .dvgrav p (decide (a = 0)) (fun t => percent (uadd t.top t.bottom) t a)
    by_cases h0 : a = 0
    · rw [decide_eq_true h0] at this ⊢
      rw [if_pos h0]
      exact this
    · rw [decide_eq_false h0] at this ⊢
      rw [if_neg h0]
      simpa [TopFn.compute] using this
  | zone =>
    have := agrees_zone h p (zoneOf (pick p i r))
    unfold Feat.loadIn Feat.load zoneLoad
    simpa [zoneOf] using this
  | propZone =>
    have := agrees_zone h p propZoneOf
    unfold Feat.loadIn Feat.load propZoneLoad
    simpa [propZoneOf] using this
  | dzdensity => exact agrees_bind _ _ _ fun v _ => Or.inl ⟨_, _, rfl, rfl, h⟩
  | proportionality => exact agrees_bind _ _ _ fun v _ => Or.inl ⟨_, _, rfl, rfl, h⟩
  | density => exact agrees_bind _ _ _ fun v _ => Or.inl ⟨_, _, rfl, rfl, h⟩
  | hbar => exact agrees_bind _ _ _ fun v _ => Or.inl ⟨_, _, rfl, rfl, h⟩
  | alternations => exact agrees_bind _ _ _ fun v _ => Or.inl ⟨_, _, rfl, rfl, h⟩

theorem stratLoad_agrees (s : Feat × Policy) (i r : Image) (c : Ctxs) (h : CtxInv c i r) :
    Agrees i r (stratLoad s i r c) (feature s i r) := by
  obtain ⟨f, p⟩ := s
  cases p with
  | img => exact loadIn_agrees f .img i r c h
  | img90 => exact loadIn_agrees f .img90 i r c h

theorem runOps_eq (ops : List CtxOp) (i r : Image) (c : Ctxs) (h : CtxInv c i r) :
    runOps ops i r c = values ops i r := by
  induction ops generalizing i r c with
  | nil => rfl
  | cons o ops ih =>
    cases o with
    | start i' r' =>
      unfold runOps values
      exact ih i' r' _ (ctxInv_reset c i' r')
    | load s =>
      unfold runOps values
      rcases stratLoad_agrees s i r c h with ⟨v, c', h1, h2, h3⟩ | ⟨h1, h2⟩
      · rw [h1, h2, Res.ok_bind]
        simp only
        rw [ih i r c' h3]
        rfl
      · rw [h2]
        cases hf : feature s i r with
        | ok v => exact absurd hf (h1 v)
        | throw => rfl
        | abort => rfl
        | ub => rfl
        | diverge => rfl

theorem loadTables_ok (i r : Image) (val : Feat × Policy → Value) (ts : List Table) (c : Ctxs)
    (hc : CtxInv c i r) (h : ∀ t ∈ ts, feature t.strat i r = .ok (val t.strat)) :
    ∃ c', loadTables i r ts c = .ok (ts.map fun t => ⟨t.strat, t.vals ++ [val t.strat]⟩, c') := by
  induction ts generalizing c with
  | nil => exact ⟨c, rfl⟩
  | cons t ts ih =>
    unfold loadTables
    have ht := h t List.mem_cons_self
    rcases stratLoad_agrees t.strat i r c hc with ⟨v, c', h1, h2, h3⟩ | ⟨h1, h2⟩
    · rw [ht] at h2
      cases h2
      obtain ⟨c'', e⟩ := ih c' h3 fun u hu => h u (List.mem_cons_of_mem _ hu)
      refine ⟨c'', ?_⟩
      rw [h1, Res.ok_bind]
      simp only
      rw [e]
      rfl
    · exact absurd ht (h1 _)

theorem loadAll_ok (val : Feat × Policy → Image → Value) (imgs : List Image) (d : Datas)
    (h : ∀ img ∈ imgs, ∃ r, img.rotate90 = .ok r ∧
      ∀ t ∈ d.tables, feature t.strat img r = .ok (val t.strat img)) :
    ∃ c, d.loadAll imgs =
      .ok ⟨d.tables.map fun t => ⟨t.strat, t.vals ++ imgs.map (val t.strat)⟩, c⟩ := by
  induction imgs generalizing d with
  | nil =>
    refine ⟨d.ctx, ?_⟩
    unfold Datas.loadAll
    have : d.tables.map (fun t => (⟨t.strat, t.vals ++ [].map (val t.strat)⟩ : Table)) = d.tables := by
      rw [List.map_congr_left (g := id)]
      · simp
      · intro t _
        simp
    rw [this]
  | cons img imgs ih =>
    obtain ⟨r, h1, h2⟩ := h img List.mem_cons_self
    obtain ⟨c1, e⟩ := loadTables_ok img r (fun s => val s img) d.tables d.ctx.reset (ctxInv_reset _ _ _) h2
    obtain ⟨c2, e2⟩ := ih ⟨d.tables.map fun t => ⟨t.strat, t.vals ++ [val t.strat img]⟩, c1⟩ (by
      intro j hj
      obtain ⟨r', a, b⟩ := h j (List.mem_cons_of_mem _ hj)
      refine ⟨r', a, ?_⟩
      intro t ht
      obtain ⟨u, hu, rfl⟩ := List.mem_map.1 ht
      exact b u hu)
    refine ⟨c2, ?_⟩
    unfold Datas.loadAll Datas.load
    rw [h1, Res.ok_bind, e]
    simp only [Res.ok_bind, Res.pure_eq]
    rw [e2, List.map_map]
    congr 2
    apply List.map_congr_left
    intro t _
    simp

end Ppocr

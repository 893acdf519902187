import Verif.Model.DatasIO
import Verif.Proofs.GlyphIO
import Verif.Proofs.Zone
import Verif.Spec.Datas

/-! # Reading a written table of features -/

namespace Ppocr

/-- What a value of each type is. -/
def Value.Fits (sh : Shape) : Value → Prop
  | .num n => sh = .num ∧ n < W32
  | .arr l => (sh = .arr l.length ∨ (sh = .vec ∧ l.length ≤ maxS)) ∧ ∀ x ∈ l, x < W32
  | .alt l => sh = .alt l.length ∧ ∀ x ∈ l, x.2 < W32

/-- `read` gives `a` on the text `w`, whatever blanks come before and whatever follows; only blanks are left. -/
def Reads {α : Type} (read : IS → α × IS) (w : List Nat) (a : α) : Prop :=
  ∀ p g : List Nat, (∀ c ∈ p, isSpace c = true) →
    ∃ p' : List Nat, (∀ c ∈ p', isSpace c = true) ∧
      read ⟨p ++ (w ++ g), false, false, true⟩ = (a, ⟨p' ++ g, false, false, true⟩)

theorem blank_32 : ∀ c ∈ [32], isSpace c = true := by decide

theorem reads_uint {max n : Nat} (h : n ≤ max) (old : Nat) :
    Reads (fun s => s.uint max old) (numWrite n) n := by
  intro p g hp
  refine ⟨[32], blank_32, ?_⟩
  have e : p ++ (numWrite n ++ g) = p ++ (showNat n ++ 32 :: g) := by simp [numWrite]
  rw [e]
  simp only []
  rw [uint_show h hp (fun _ => rfl) (dec_32 g)]
  rfl

theorem reads_nums : ∀ l : List Nat, (∀ x ∈ l, x < W32) → Reads (numsRead l.length) (l.flatMap numWrite) l
  | [], _ => by
    intro p g hp
    exact ⟨p, hp, by simp [numsRead]⟩
  | n :: l, h => by
    intro p g hp
    obtain ⟨p1, hp1, e1⟩ := reads_uint (max := W32 - 1) (n := n) (by have := h n (by simp); omega) 0 p
      (l.flatMap numWrite ++ g) hp
    obtain ⟨p2, hp2, e2⟩ := reads_nums l (fun x hx => h x (by simp [hx])) p1 g hp1
    refine ⟨p2, hp2, ?_⟩
    simp only [] at e1
    rw [List.length_cons, numsRead, List.flatMap_cons, List.append_assoc, e1]
    simp only []
    rw [e2]

theorem reads_alts : ∀ l : List (Bool × Nat), (∀ x ∈ l, x.2 < W32) →
    Reads (altsRead l.length) (l.flatMap altWrite) l
  | [], _ => by
    intro p g hp
    exact ⟨p, hp, by simp [altsRead]⟩
  | (b, n) :: l, h => by
    intro p g hp
    have hn : n < W32 := h (b, n) (by simp)
    obtain ⟨p1, hp1, e1⟩ := reads_uint (max := W32 - 1) (n := n) (by omega) 0 [32]
      (l.flatMap altWrite ++ g) blank_32
    obtain ⟨p2, hp2, e2⟩ := reads_alts l (fun x hx => h x (by simp [hx])) p1 g hp1
    refine ⟨p2, hp2, ?_⟩
    simp only [] at e1
    have e : p ++ (((b, n) :: l).flatMap altWrite ++ g) =
        p ++ (showBool b ++ 32 :: (numWrite n ++ (l.flatMap altWrite ++ g))) := by
      simp [altWrite, numWrite]
    have e' : [32] ++ (numWrite n ++ (l.flatMap altWrite ++ g)) = 32 :: (numWrite n ++ (l.flatMap altWrite ++ g)) := rfl
    rw [e'] at e1
    rw [List.length_cons, altsRead, e, bool_show hp (fun _ => rfl) (dec_32 _)]
    simp only [List.isEmpty_cons]
    rw [e1]
    simp only []
    rw [e2]

theorem reads_value {sh : Shape} {v : Value} (h : v.Fits sh) : Reads (valueRead sh) (valueWrite sh v) v := by
  intro p g hp
  cases v with
  | num n =>
    obtain ⟨rfl, hn⟩ := h
    obtain ⟨p', hp', e⟩ := reads_uint (max := W32 - 1) (n := n) (by omega) 0 p g hp
    refine ⟨p', hp', ?_⟩
    simp only [] at e
    simp only [valueRead, valueWrite]
    rw [e]
  | arr l =>
    obtain ⟨hs, hl⟩ := h
    rcases hs with rfl | ⟨rfl, hm⟩
    · obtain ⟨p', hp', e⟩ := reads_nums l hl p g hp
      refine ⟨p', hp', ?_⟩
      simp only [valueRead, valueWrite]
      rw [if_neg (by simp), List.nil_append, e]
    · obtain ⟨p1, hp1, e1⟩ := reads_uint (max := maxS) (n := l.length) hm 0 p (l.flatMap numWrite ++ g) hp
      obtain ⟨p2, hp2, e2⟩ := reads_nums l hl p1 g hp1
      refine ⟨p2, hp2, ?_⟩
      simp only [] at e1
      simp only [valueRead, valueWrite, if_true]
      rw [List.append_assoc, e1]
      simp only [Bool.false_eq_true, if_false]
      rw [e2]
  | alt l =>
    obtain ⟨rfl, hl⟩ := h
    obtain ⟨p', hp', e⟩ := reads_alts l hl p g hp
    refine ⟨p', hp', ?_⟩
    simp only [valueRead, valueWrite]
    rw [e]

theorem reads_values {sh : Shape} : ∀ vs : List Value, (∀ v ∈ vs, v.Fits sh) →
    Reads (valuesRead sh vs.length) (vs.flatMap (valueWrite sh)) vs
  | [], _ => by
    intro p g hp
    exact ⟨p, hp, by simp [valuesRead]⟩
  | v :: vs, h => by
    intro p g hp
    obtain ⟨p1, hp1, e1⟩ := reads_value (h v (by simp)) p (vs.flatMap (valueWrite sh) ++ g) hp
    obtain ⟨p2, hp2, e2⟩ := reads_values vs (fun x hx => h x (by simp [hx])) p1 g hp1
    refine ⟨p2, hp2, ?_⟩
    rw [List.length_cons, valuesRead, List.flatMap_cons, List.append_assoc, e1]
    simp only []
    rw [e2]

theorem sentry_end {p : List Nat} (hp : ∀ c ∈ p, isSpace c = true) :
    (IS.sentry ⟨p, false, false, true⟩ false).1 = ⟨[], true, true, true⟩ := by
  have : p.dropWhile isSpace = [] := by
    have := (dropWhile_prefix (b := []) hp (by simp)).1
    rwa [List.append_nil] at this
  unfold IS.sentry IS.good
  simp [this]

theorem tablesRead_write {n : Nat} : ∀ (ts : List Table) (p : List Nat), (∀ c ∈ p, isSpace c = true) →
    (∀ t ∈ ts, t.vals.length = n ∧ ∀ v ∈ t.vals, v.Fits t.strat.1.shape) →
    tablesRead n (ts.map Table.strat) ⟨p ++ ts.flatMap tableWrite, false, false, true⟩ =
      (ts, ⟨[], true, true, true⟩)
  | [], p, hp, _ => by
    rw [List.map_nil, tablesRead, List.flatMap_nil, List.append_nil]
    simp only [Bool.false_eq_true, if_false]
    rw [sentry_end hp]
  | t :: ts, p, hp, h => by
    obtain ⟨hl, hv⟩ := h t (by simp)
    obtain ⟨p1, hp1, e1⟩ := reads_values t.vals hv p (10 :: ts.flatMap tableWrite) hp
    have ih := tablesRead_write ts (p1 ++ [10]) (by
      intro c hc
      rcases List.mem_append.1 hc with hc | hc
      · exact hp1 c hc
      · simp only [List.mem_singleton] at hc
        subst hc
        rfl) fun u hu => h u (by simp [hu])
    have e : p ++ (t :: ts).flatMap tableWrite =
        p ++ (t.vals.flatMap (valueWrite t.strat.1.shape) ++ 10 :: ts.flatMap tableWrite) := by
      simp [tableWrite]
    rw [List.map_cons, tablesRead, e, ← hl]
    simp only [Bool.false_eq_true, if_false]
    rw [e1]
    simp only []
    have e2 : p1 ++ 10 :: ts.flatMap tableWrite = p1 ++ [10] ++ ts.flatMap tableWrite := by simp
    rw [e2, hl, ih]

/-- The table of features can be written and read: all columns have the same size and hold values of their types. -/
structure Datas.Fits (d : Datas) : Prop where
  strats : d.tables.map Table.strat = simpleStrats ++ complexStrats ++ exclusiveStrats
  size : d.size ≤ maxS
  same : ∀ t ∈ d.tables, t.vals.length = d.size
  vals : ∀ t ∈ d.tables, ∀ v ∈ t.vals, v.Fits t.strat.1.shape

theorem datasRead_write {d : Datas} (h : d.Fits) :
    datasRead (IS.of (datasWrite d)) = (⟨d.tables, Ctxs.fresh⟩, ⟨[], true, true, true⟩) := by
  unfold datasRead IS.of datasWrite
  have := uint_show (p := []) (old := 0) (ws := true) h.size (by simp) (by simp) (dec_10 (d.tables.flatMap tableWrite))
  rw [List.nil_append] at this
  rw [this]
  simp only [List.isEmpty_cons]
  have e := tablesRead_write (n := d.size) d.tables [10] (by decide) fun t ht => ⟨h.same t ht, h.vals t ht⟩
  rw [h.strats] at e
  have e' : [10] ++ d.tables.flatMap tableWrite = 10 :: d.tables.flatMap tableWrite := rfl
  rw [e'] at e
  rw [e]

/-! ### The features fit -/

theorem udiv_lt {a b c : Nat} (ha : a < W32) (h : udiv a b = .ok c) : c < W32 := by
  unfold udiv at h
  split at h
  · simp at h
  · injection h with h
    subst h
    exact Nat.lt_of_le_of_lt (Nat.div_le_self _ _) ha

theorem umul_lt (a b : Nat) : umul a b < W32 := Nat.mod_lt _ W32_pos
theorem usub_lt (a b : Nat) : usub a b < W32 := Nat.mod_lt _ W32_pos

theorem percent_lt {a c : Nat} {t : TopBottom} {d : Nat} (h : percent a t d = .ok c) : c < W32 :=
  udiv_lt (umul_lt _ _) h

theorem ratio200_lt {t : TopBottom} {c : Nat} (h : ratio200 t = .ok c) : c < W32 := by
  unfold ratio200 at h
  simp only [] at h
  split at h
  · exact percent_lt h
  · injection h with h
    subst h
    decide

theorem hbarLoop_lt {data : List Pixel} {w e : Nat} : ∀ (fuel p : Nat) (prev : Bool) (n : Nat) {c : Nat}, n < W32 →
    hbarLoop data w e fuel p prev n = .ok c → c < W32
  | 0, _, _, _, _, _, h => by simp [hbarLoop] at h
  | fuel + 1, p, prev, n, c, hn, h => by
    rw [hbarLoop] at h
    split at h
    · injection h with h
      omega
    · obtain ⟨f, _, h⟩ := Res.bind_eq_ok.1 h
      refine hbarLoop_lt fuel _ _ _ ?_ h
      split
      · exact uadd_lt _ _
      · exact hn

theorem altLoop_lt {get : Nat → Res Bool} {last : Nat} : ∀ (fuel it n : Nat) {c : Nat}, n < W32 →
    altLoop get last fuel it n = .ok c → c < W32
  | 0, _, _, _, _, h => by simp [altLoop] at h
  | fuel + 1, it, n, c, hn, h => by
    rw [altLoop] at h
    obtain ⟨x, _, h⟩ := Res.bind_eq_ok.1 h
    obtain ⟨it', _, h⟩ := Res.bind_eq_ok.1 h
    split at h
    · simp only [Res.pure_eq, Res.ok.injEq] at h
      omega
    · exact altLoop_lt fuel _ _ (uadd_lt _ _) h

theorem makeAlternations_lt {i : Image} {y w : Nat} {get : Nat → Res Bool} {v : Bool × Nat}
    (h : makeAlternations i y w get = .ok v) : v.2 < W32 := by
  unfold makeAlternations at h
  obtain ⟨_, _, h⟩ := Res.bind_eq_ok.1 h
  obtain ⟨b, _, h⟩ := Res.bind_eq_ok.1 h
  obtain ⟨c, hc, h⟩ := Res.bind_eq_ok.1 h
  simp only [Res.pure_eq, Res.ok.injEq] at h
  subst h
  exact altLoop_lt _ _ _ (by decide) hc

theorem altFirst_lt {i : Image} {v : Bool × Nat} (h : altFirst i = .ok v) : v.2 < W32 := by
  unfold altFirst at h
  split at h
  · injection h with h
    subst h
    decide
  · exact makeAlternations_lt h

theorem alternations_fits {i r : Image} {l : List (Bool × Nat)} (h : alternationsLoad i r = .ok l) :
    l.length = 7 ∧ ∀ x ∈ l, x.2 < W32 := by
  unfold alternationsLoad at h
  obtain ⟨a0, h0, h⟩ := Res.bind_eq_ok.1 h
  obtain ⟨a1, h1, h⟩ := Res.bind_eq_ok.1 h
  obtain ⟨a2, h2, h⟩ := Res.bind_eq_ok.1 h
  obtain ⟨a3, h3, h⟩ := Res.bind_eq_ok.1 h
  obtain ⟨a4, h4, h⟩ := Res.bind_eq_ok.1 h
  obtain ⟨a5, h5, h⟩ := Res.bind_eq_ok.1 h
  obtain ⟨a6, h6, h⟩ := Res.bind_eq_ok.1 h
  simp only [Res.pure_eq, Res.ok.injEq] at h
  subst h
  refine ⟨rfl, ?_⟩
  intro x hx
  simp only [List.mem_cons, List.not_mem_nil, or_false] at hx
  rcases hx with e | e | e | e | e | e | e <;> rw [e]
  · exact altFirst_lt h0
  · exact makeAlternations_lt h1
  · exact makeAlternations_lt h2
  · exact makeAlternations_lt h3
  · exact makeAlternations_lt h4
  · exact makeAlternations_lt h5
  · exact makeAlternations_lt h6

theorem insertZone_length {i : Image} {m l l' : List Nat} {x y : Nat} (h : insertZone i m l x y = .ok l') :
    l'.length = l.length := by
  unfold insertZone at h
  obtain ⟨z, _, h⟩ := Res.bind_eq_ok.1 h
  split at h
  · unfold bump at h
    obtain ⟨_, _, h⟩ := Res.bind_eq_ok.1 h
    obtain ⟨v, _, h⟩ := Res.bind_eq_ok.1 h
    simp only [Res.pure_eq, Res.ok.injEq] at h
    subst h
    simp
  · simp only [Res.pure_eq, Res.ok.injEq] at h
    rw [h]

theorem borderRows_length {i : Image} {m : List Nat} : ∀ (n x : Nat) (t b : List Nat) {r : List Nat × List Nat},
    borderRows i m n x t b = .ok r → r.1.length = t.length ∧ r.2.length = b.length
  | 0, _, _, _, _, h => by
    simp only [borderRows, Res.ok.injEq] at h
    subst h
    exact ⟨rfl, rfl⟩
  | n + 1, x, t, b, r, h => by
    rw [borderRows] at h
    obtain ⟨t', h1, h⟩ := Res.bind_eq_ok.1 h
    obtain ⟨b', h2, h⟩ := Res.bind_eq_ok.1 h
    obtain ⟨e1, e2⟩ := borderRows_length n _ _ _ h
    rw [e1, e2, insertZone_length h1, insertZone_length h2]
    exact ⟨rfl, rfl⟩

theorem borderCols_length {i : Image} {m : List Nat} : ∀ (n x : Nat) (t b : List Nat) {r : List Nat × List Nat},
    borderCols i m n x t b = .ok r → r.1.length = t.length ∧ r.2.length = b.length
  | 0, _, _, _, _, h => by
    simp only [borderCols, Res.ok.injEq] at h
    subst h
    exact ⟨rfl, rfl⟩
  | n + 1, x, t, b, r, h => by
    rw [borderCols] at h
    obtain ⟨t', h1, h⟩ := Res.bind_eq_ok.1 h
    obtain ⟨b', h2, h⟩ := Res.bind_eq_ok.1 h
    obtain ⟨e1, e2⟩ := borderCols_length n _ _ _ h
    rw [e1, e2, insertZone_length h1, insertZone_length h2]
    exact ⟨rfl, rfl⟩

theorem countZone_sizes {i : Image} {z : ZoneInfo} (h : countZone i = .ok z) : z.count < W32 ∧
    z.top.length = z.count ∧ z.right.length = z.count ∧ z.bottom.length = z.count ∧ z.left.length = z.count := by
  unfold countZone at h
  obtain ⟨⟨m, c⟩, _, h⟩ := Res.bind_eq_ok.1 h
  simp only [] at h
  split at h
  · rename_i hc
    obtain ⟨⟨t, b⟩, h1, h⟩ := Res.bind_eq_ok.1 h
    obtain ⟨⟨l, r⟩, h2, h⟩ := Res.bind_eq_ok.1 h
    simp only [Res.pure_eq, Res.ok.injEq] at h
    subst h
    have e1 := borderRows_length _ _ _ _ h1
    have e2 := borderCols_length _ _ _ _ h2
    simp only [List.length_replicate] at e1 e2
    exact ⟨by simp only []; omega, e1.1, e2.2, e1.2, e2.1⟩
  · simp at h

theorem countUsed_le (l : List Nat) : countUsed l ≤ l.length := List.countP_le_length

theorem zone_fits {i : Image} {l : List Nat} (h : zoneLoad i = .ok l) : l.length = 7 ∧ ∀ x ∈ l, x < W32 := by
  unfold zoneLoad at h
  obtain ⟨z, hz, h⟩ := Res.bind_eq_ok.1 h
  obtain ⟨a, _, h⟩ := Res.bind_eq_ok.1 h
  obtain ⟨b, _, h⟩ := Res.bind_eq_ok.1 h
  obtain ⟨s0, s1, s2, s3, s4⟩ := countZone_sizes hz
  simp only [Res.pure_eq, Res.ok.injEq] at h
  subst h
  refine ⟨rfl, ?_⟩
  intro x hx
  have hb : ∀ b : Bool, b.toNat < W32 := by decide
  have c1 := countUsed_le z.top
  have c2 := countUsed_le z.right
  have c3 := countUsed_le z.bottom
  have c4 := countUsed_le z.left
  simp only [List.mem_cons, List.not_mem_nil, or_false] at hx
  rcases hx with e | e | e | e | e | e | e
  · rw [e]; exact hb _
  · rw [e]; exact hb _
  · omega
  · omega
  · omega
  · omega
  · rw [e]; exact usub_lt _ _

theorem mapM_all {f : Nat → Res Nat} {P : Nat → Prop} (hf : ∀ a b, f a = .ok b → P b) : ∀ (l : List Nat) {r : List Nat},
    l.mapM f = .ok r → r.length = l.length ∧ ∀ x ∈ r, P x
  | [], r, h => by
    simp only [List.mapM_nil, Res.pure_eq, Res.ok.injEq] at h
    subst h
    simp
  | a :: l, r, h => by
    rw [List.mapM_cons] at h
    obtain ⟨b, hb, h⟩ := Res.bind_eq_ok.1 h
    obtain ⟨bs, hbs, h⟩ := Res.bind_eq_ok.1 h
    simp only [Res.pure_eq, Res.ok.injEq] at h
    subst h
    obtain ⟨e1, e2⟩ := mapM_all hf l hbs
    refine ⟨by simp [e1], ?_⟩
    intro x hx
    rcases List.mem_cons.1 hx with rfl | hx
    · exact hf a _ hb
    · exact e2 x hx

theorem propZone_fits {i : Image} {l : List Nat} (h : propZoneLoad i = .ok l) :
    l.length ≤ maxS ∧ ∀ x ∈ l, x < W32 := by
  unfold propZoneLoad at h
  obtain ⟨z, hz, h⟩ := Res.bind_eq_ok.1 h
  simp only [] at h
  obtain ⟨r, hr, h⟩ := Res.bind_eq_ok.1 h
  simp only [Res.pure_eq, Res.ok.injEq] at h
  obtain ⟨e1, e2⟩ := mapM_all (P := (· < W32)) (fun a b hb => udiv_lt (umul_lt _ _) hb) _ hr
  have hs := (countZone_sizes hz).1
  have hp : l.Perm r := by rw [← h]; exact sortNat_perm r
  refine ⟨?_, fun x hx => e2 x (hp.mem_iff.1 hx)⟩
  rw [hp.length_eq, e1]
  refine Nat.le_trans (List.length_filter_le _ _) ?_
  simp only [List.length_map, List.length_range]
  have : W32 ≤ maxS := by decide
  omega

theorem dzdensity_lt {i : Image} {n : Nat} (h : dzdensityLoad i = .ok n) : n < W32 := by
  unfold dzdensityLoad at h
  split at h
  · injection h with h
    subst h
    decide
  · obtain ⟨⟨res, ar⟩, _, h⟩ := Res.bind_eq_ok.1 h
    obtain ⟨r, hr, h⟩ := Res.bind_eq_ok.1 h
    split at h
    · simp at h
    · simp only [Res.pure_eq, Res.ok.injEq] at h
      unfold si at hr
      split at hr
      · rename_i hb
        injection hr with hr
        have h1 : (Int.tdiv r ar).natAbs ≤ r.natAbs := by
          rw [Int.natAbs_tdiv]
          exact Nat.div_le_self _ _
        simp only [W32]
        omega
      · simp at hr

theorem densityLoad_lt {i : Image} {n : Nat} (h : densityLoad i = .ok n) : n < W32 := by
  unfold densityLoad at h
  obtain ⟨c, _, h⟩ := Res.bind_eq_ok.1 h
  exact udiv_lt (umul_lt _ _) h

theorem num_fits {f : Feat} (hf : f.shape = .num) {x : Res Nat} {v : Value} (hx : ∀ n, x = .ok n → n < W32)
    (h : (do return Value.num (← x)) = .ok v) : v.Fits f.shape := by
  obtain ⟨n, hn, h⟩ := Res.bind_eq_ok.1 h
  simp only [Res.pure_eq, Res.ok.injEq] at h
  subst h
  exact ⟨hf, hx n hn⟩

theorem ratio_load {x : Res TopBottom} {n : Nat} (h : (do ratio200 (← x)) = .ok n) : n < W32 := by
  obtain ⟨t, _, h⟩ := Res.bind_eq_ok.1 h
  exact ratio200_lt h

theorem fifty_lt : 50 < W32 := by decide

theorem hdirection2_lt {i : Image} {n : Nat} (h : hdirection2Load i = .ok n) : n < W32 := by
  unfold hdirection2Load at h
  simp only [] at h
  split at h
  · injection h with h
    subst h
    exact fifty_lt
  · obtain ⟨t, _, h⟩ := Res.bind_eq_ok.1 h
    exact percent_lt h

theorem hgravity2_lt {i : Image} {n : Nat} (h : hgravity2Load i = .ok n) : n < W32 := by
  unfold hgravity2Load at h
  simp only [] at h
  split at h
  · injection h with h
    subst h
    exact fifty_lt
  · obtain ⟨t, _, h⟩ := Res.bind_eq_ok.1 h
    exact percent_lt h

theorem dvdirection2_lt {i : Image} {n : Nat} (h : dvdirection2Load i = .ok n) : n < W32 := by
  unfold dvdirection2Load at h
  obtain ⟨a, _, h⟩ := Res.bind_eq_ok.1 h
  split at h
  · simp only [Res.pure_eq, Res.ok.injEq] at h
    subst h
    exact fifty_lt
  · obtain ⟨t, _, h⟩ := Res.bind_eq_ok.1 h
    exact percent_lt h

theorem dvgravity2_lt {i : Image} {n : Nat} (h : dvgravity2Load i = .ok n) : n < W32 := by
  unfold dvgravity2Load at h
  obtain ⟨a, _, h⟩ := Res.bind_eq_ok.1 h
  split at h
  · simp only [Res.pure_eq, Res.ok.injEq] at h
    subst h
    exact fifty_lt
  · obtain ⟨t, _, h⟩ := Res.bind_eq_ok.1 h
    exact percent_lt h

theorem load_fits {f : Feat} {i r : Image} {v : Value} (h : f.load i r = .ok v) : v.Fits f.shape := by
  cases f with
  | hdirection => exact num_fits rfl (fun _ => ratio_load) h
  | hgravity => exact num_fits rfl (fun _ => ratio_load) h
  | dvdirection => exact num_fits rfl (fun _ => ratio_load) h
  | dvgravity => exact num_fits rfl (fun _ => ratio_load) h
  | hdirection2 => exact num_fits rfl (fun _ => hdirection2_lt) h
  | hgravity2 => exact num_fits rfl (fun _ => hgravity2_lt) h
  | dvdirection2 => exact num_fits rfl (fun _ => dvdirection2_lt) h
  | dvgravity2 => exact num_fits rfl (fun _ => dvgravity2_lt) h
  | dzdensity => exact num_fits rfl (fun _ => dzdensity_lt) h
  | proportionality => exact num_fits rfl (fun _ => udiv_lt (umul_lt _ _)) h
  | density => exact num_fits rfl (fun _ => densityLoad_lt) h
  | hbar => exact num_fits rfl (fun _ => hbarLoop_lt _ _ _ _ (by decide)) h
  | alternations =>
    obtain ⟨l, hl, h⟩ := Res.bind_eq_ok.1 h
    simp only [Res.pure_eq, Res.ok.injEq] at h
    subst h
    obtain ⟨h1, h2⟩ := alternations_fits hl
    exact ⟨by rw [h1]; rfl, h2⟩
  | zone =>
    obtain ⟨l, hl, h⟩ := Res.bind_eq_ok.1 h
    simp only [Res.pure_eq, Res.ok.injEq] at h
    subst h
    obtain ⟨h1, h2⟩ := zone_fits hl
    exact ⟨.inl (by rw [h1]; rfl), h2⟩
  | propZone =>
    obtain ⟨l, hl, h⟩ := Res.bind_eq_ok.1 h
    simp only [Res.pure_eq, Res.ok.injEq] at h
    subst h
    obtain ⟨h1, h2⟩ := propZone_fits hl
    exact ⟨.inr ⟨rfl, h1⟩, h2⟩

theorem feature_fits {s : Feat × Policy} {i r : Image} {v : Value} (h : Spec.feature s i r = .ok v) :
    v.Fits s.1.shape := by
  unfold Spec.feature at h
  split at h
  · exact load_fits h
  · exact load_fits h

/-- Reading a number that is too great. -/
theorem uint_great {max n old : Nat} {p r : List Nat} {ws : Bool} (hn : max < n)
    (hp : ∀ c ∈ p, isSpace c = true) (hw : p ≠ [] → ws = true) (hr : ∀ c t, r = c :: t → isDec c = false) :
    IS.uint max ⟨p ++ (showNat n ++ r), false, false, ws⟩ old = (max, ⟨r, r.isEmpty, true, ws⟩) := by
  obtain ⟨c, t, e, hc⟩ := showNat_cons n
  unfold IS.uint
  rw [sentry_skip hp hw (by rw [e]; simp) (by
    intro c' t' h
    rw [e, List.cons_append, List.cons.injEq] at h
    rw [← h.1]
    exact isSpace_of_dec hc)]
  simp only []
  obtain ⟨e1, e2⟩ := dropWhile_prefix (showNat_dec n) hr
  have e3 : parseSign (showNat n ++ r) = (false, showNat n ++ r) := by
    rw [e, List.cons_append]
    exact parseSign_dec hc
  rw [e3]
  simp only [e1, e2, showNat_val]
  rw [if_neg (by simpa using showNat_ne n), if_pos hn]

/-- When reading has failed nothing more is read. -/
theorem tablesRead_failed (sz : Nat) : ∀ (fs : List (Feat × Policy)) (s : IS), s.fail = true →
    tablesRead sz fs s = (fs.map fun f => ⟨f, []⟩, s)
  | [], s, h => by
    unfold tablesRead
    rw [if_pos h]
    rfl
  | f :: fs, s, h => by
    unfold tablesRead
    simp only [h, if_true]
    rw [tablesRead_failed sz fs s h]
    rfl

end Ppocr

import Verif.Proofs.Alike
import Verif.Props.Beside

/-! # What is read of a line depends on its letters, their rows and the spaces (C100) -/

namespace Ppocr.Props
open Ppocr Spec

/-! ### Helper lemmas -/

theorem extractText_alike {P : Type} [Dbl P] {top : Nat} {i i' : Image} {bs bs' : List Box} {as : List Image}
    (h : AlikeLines top i i' bs bs' as) (wf : i.WF) (wf' : i'.WF) (hw : 0 < i.bounds.w) (hw' : 0 < i'.bounds.w)
    (hp : 0 < i.bounds.h) (hp' : 0 < i'.bounds.h) (hs : i.bounds.w * i.bounds.h + i.bounds.w ≤ W32)
    (hs' : i'.bounds.w * i'.bounds.h + i'.bounds.w ≤ W32)
    (hone : top = 0 ∨ ∀ b, bs = [b] → ¬ (b.h = 1 ∧ (b.y = 1 ∨ b.y + top = 1)))
    (s : Setup P) (g : RGlyphs) (infos : List WordInfo) (E : List FNode) :
    extractText s g infos E i' = extractText s g infos E i := by
  have hb := segment_boxes wf hw hp hs h.letters
  have hb' := segment_boxes wf' hw' hp' hs' h.letters'
  have hl := h.alike wf wf' hb hb'
  have w1 := Nat.mul_le_mul_left i.bounds.w (show 1 ≤ i.bounds.h by omega)
  have w1' := Nat.mul_le_mul_left i'.bounds.w (show 1 ≤ i'.bounds.h by omega)
  have hW : W32 = 4294967296 := rfl
  have h4 : i.bounds.w + 4 < W32 := by omega
  have h4' : i'.bounds.w + 4 < W32 := by omega
  have key := lineLoop_alike s g (i.bounds.w + 1) (i'.bounds.w + 1) 0 0 bs bs' (Line.init P) [] h.letters h.letters' hl (by omega)
    (by omega) (fun b m => by obtain ⟨_, c⟩ := hb b m; have := c.right; omega)
    (fun b m => by obtain ⟨_, c⟩ := hb' b m; have := c.right; omega)
  have e0 : ({ Line.init P with boxes := [] } : Ppocr.Line P) = Line.init P := rfl
  rw [e0] at key
  unfold extractText
  rw [key, Res.bind_assoc]
  refine res_bind_congr_ok fun r er => ?_
  obtain ⟨cs, es, eb⟩ := lineLoop_boxes _ _ _ _ er
  have ec : cs = bs := by
    have := h.letters
    unfold segment at this
    rw [this] at es
    cases es
    rfl
  have eb' : r.boxes = bs := by rw [eb, ec]; rfl
  rw [Res.ok_bind]
  have ef : filterByLines infos bs' r.refs r.st = filterByLines infos bs r.refs r.st := by
    rw [← filterByLines_rows infos bs', ← filterByLines_rows infos bs, alike_rows hl]
    rcases hone with rfl | hone
    · congr 1
      conv => rhs; rw [← List.map_id (bs.map rowsOf)]
      rfl
    · apply filterByLines_margins
      · intro b m
        obtain ⟨c, mc, rfl⟩ := List.mem_map.1 m
        obtain ⟨_, k⟩ := hb c mc
        have k1 := k.bottom
        have k2 := k.hpos
        have ey : c.y + top ∈ bs'.map Box.y := by
          rw [h.rows]
          exact List.mem_map_of_mem mc
        obtain ⟨c', m', e'⟩ := List.mem_map.1 ey
        obtain ⟨_, k'⟩ := hb' c' m'
        have k1' := k'.bottom
        have k2' := k'.hpos
        have k3' := k'.notLast
        have k4' := k'.wpos
        have k3 := k.notLast
        have k4 := k.wpos
        refine ⟨k2, ?_⟩
        show c.y + c.h + (top + 1) < W32
        have g1 := Nat.mul_le_mul_right i.bounds.h (show 2 ≤ i.bounds.w by omega)
        have g2 := Nat.mul_le_mul_right i'.bounds.h (show 2 ≤ i'.bounds.w by omega)
        omega
      · intro b e
        obtain ⟨c, rfl⟩ : ∃ c, bs = [c] := by
          cases bs with
          | nil => cases e
          | cons c cs =>
            cases cs with
            | nil => exact ⟨c, rfl⟩
            | cons d ds => simp at e
        cases e
        exact hone c rfl
  show (filterByLines infos ([] ++ bs') r.refs r.st >>= fun st => _) = _
  rw [List.nil_append, ef, eb']

/-! ### The claim -/

/-- **C100.** Two line images that hold the same letters in the same rows, and whose spaces fall between the same letters, are
answered alike — the same text and counts, the same error, or undefined behaviour for both — whatever was learned and
whatever the other files hold. The columns the letters stand in, the widths of the gaps on either side of the limit of four
columns and the sizes of the two images do not count. -/
theorem C100_letters {P : Type} [Dbl P] (S : StdSort) (f : ProgFiles) (image' : FileEnv) (i i' : Image) (bs bs' : List Box)
    (as : List Image) (hi : loadImage f.image 128 = .ok i) (hi' : loadImage image' 128 = .ok i')
    (hs : i.bounds.w * i.bounds.h + i.bounds.w ≤ 2 ^ 32) (hs' : i'.bounds.w * i'.bounds.h + i'.bounds.w ≤ 2 ^ 32)
    (h : AlikeLines 0 i i' bs bs' as) :
    program P S { f with image := image' } = program P S f := by
  unfold program
  dsimp only
  refine res_bind_congr fun E => res_bind_congr fun d => res_bind_congr fun g => ?_
  by_cases hg : g.views.length ≠ d.size
  · rw [if_pos hg, if_pos hg]
  · rw [if_neg hg, if_neg hg]
    refine res_bind_congr fun infos => res_bind_congr fun bw => ?_
    rw [hi, hi', Res.ok_bind, Res.ok_bind]
    have p := loadImage_picture hi
    have p' := loadImage_picture hi'
    exact extractText_alike h p.wf p'.wf p.w p'.w p.h p'.h hs hs' (.inl rfl) _ g infos E

/-- The same with all letters moved down by the same number of rows: then a line of one letter, one row high, must not be in
the second row before or after (`C78_point`). -/
theorem C100_moved {P : Type} [Dbl P] (S : StdSort) (f : ProgFiles) (image' : FileEnv) (top : Nat) (i i' : Image)
    (bs bs' : List Box) (as : List Image) (hi : loadImage f.image 128 = .ok i) (hi' : loadImage image' 128 = .ok i')
    (hs : i.bounds.w * i.bounds.h + i.bounds.w ≤ 2 ^ 32) (hs' : i'.bounds.w * i'.bounds.h + i'.bounds.w ≤ 2 ^ 32)
    (h : AlikeLines top i i' bs bs' as) (hone : ∀ b, bs = [b] → ¬ (b.h = 1 ∧ (b.y = 1 ∨ b.y + top = 1))) :
    program P S { f with image := image' } = program P S f := by
  unfold program
  dsimp only
  refine res_bind_congr fun E => res_bind_congr fun d => res_bind_congr fun g => ?_
  by_cases hg : g.views.length ≠ d.size
  · rw [if_pos hg, if_pos hg]
  · rw [if_neg hg, if_neg hg]
    refine res_bind_congr fun infos => res_bind_congr fun bw => ?_
    rw [hi, hi', Res.ok_bind, Res.ok_bind]
    have p := loadImage_picture hi
    have p' := loadImage_picture hi'
    exact extractText_alike h p.wf p'.wf p.w p'.w p.h p'.h hs hs' (.inr hone) _ g infos E

/-! ### Helper lemmas: a wider gap -/

theorem charBox_last {i : Image} {x0 : Nat} {b : Box} (h : CharBox i x0 b) : ¬ BlankCol i (b.x + b.w - 1) := by
  intro hb
  have hw := h.wpos
  by_cases h1 : b.w = 1
  · obtain ⟨y, _, hl⟩ := h.tightLeft
    have := hb y
    rw [show b.x + b.w - 1 = b.x by omega, hl] at this
    cases this
  · obtain ⟨y, y', _, hl, _⟩ := h.run (b.x + b.w - 2) (by omega) (by omega)
    have := hb y'
    rw [show b.x + b.w - 2 + 1 = b.x + b.w - 1 by omega] at hl
    rw [hl] at this
    cases this

/-- A picture without letters. -/
theorem segment_blank {d : Image} (wf : d.WF) (hw : 0 < d.bounds.w) (hh : 1 < d.bounds.h)
    (hs : d.bounds.w * d.bounds.h + d.bounds.w ≤ W32) (hb : ∀ x, x < d.bounds.w → BlankCol d x) : segment d = .ok [] := by
  obtain ⟨b, e, t⟩ := makeBox_none wf hh hs hw (x0 := 0) (fun c _ h => hb c (by omega))
  unfold segment segmentFrom
  rw [e, Res.ok_bind, if_neg (by rw [t]; decide)]
  rfl

/-- The letters of the two parts and the gap before the second part. -/
theorem gap_append {as cs ds : List Box} {p k : Nat} (h5 : 5 ≤ p) (ha : ∀ b ∈ as, b.x + b.w + 5 ≤ p)
    (hd : ds = cs.map (movedBox k 0)) (j : Nat) :
    Gap (as ++ ds.map (movedBox p 0)) j ↔ Gap (as ++ cs.map (movedBox p 0)) j := by
  subst hd
  have hend : ∀ (es : List Box), j ≤ as.length → endBefore (as ++ es) j = endBefore as j := by
    intro es hj
    cases j with
    | zero => rfl
    | succ j => simp only [endBefore]; rw [List.getElem?_append_left (by omega)]
  by_cases hj : j < as.length
  · unfold Gap
    rw [hend _ (by omega), hend _ (by omega), List.getElem?_append_left hj, List.getElem?_append_left hj]
  · obtain ⟨m, rfl⟩ : ∃ m, j = as.length + m := ⟨j - as.length, by omega⟩
    have hget : ∀ es : List Box, (as ++ es)[as.length + m]? = es[m]? := by
      intro es
      rw [List.getElem?_append_right (by omega), show as.length + m - as.length = m by omega]
    have hlast : endBefore as as.length + 5 ≤ p := by
      cases hl : as.length with
      | zero => exact h5
      | succ n =>
        simp only [endBefore]
        obtain ⟨b, e⟩ : ∃ b, as[n]? = some b := ⟨as[n]'(by omega), by simp⟩
        rw [e]
        exact ha b (List.mem_of_getElem? e)
    unfold Gap
    rw [hget, hget]
    cases m with
    | zero =>
      simp only [Nat.add_zero] at hend ⊢
      rw [hend _ (Nat.le_refl _), hend _ (Nat.le_refl _)]
      cases cs with
      | nil => simp
      | cons c cs =>
        simp only [List.map_cons, List.getElem?_cons_zero, Option.some.injEq, exists_eq_left', movedBox]
        omega
    | succ m =>
      rw [show as.length + (m + 1) = as.length + m + 1 by omega]
      simp only [endBefore, List.getElem?_map]
      rw [List.getElem?_append_right (by omega), List.getElem?_append_right (by omega),
        show as.length + m - as.length = m by omega]
      simp only [List.getElem?_map]
      cases e1 : cs[m + 1]? with
      | none => simp
      | some c =>
        have : m + 1 < cs.length := (List.getElem?_eq_some_iff.1 e1).1
        obtain ⟨c', e2⟩ : ∃ c', cs[m]? = some c' := ⟨cs[m]'(by omega), by simp⟩
        rw [e2]
        simp only [Option.map_some, Option.some.injEq, exists_eq_left', Option.getD_some, movedBox]
        omega

/-- Both lines hold the same letters. -/
theorem widened_alike {p k : Nat} {i i' : Image} (q : Picture i) (q' : Picture i') (h : Widened p k i i')
    (hh : 1 < i.bounds.h) (hs' : i'.bounds.w * i'.bounds.h + i'.bounds.w ≤ 2 ^ 32) (h5 : 5 ≤ p) (hp : p < i.bounds.w)
    (hb : ∀ x, p ≤ x + 5 → x < p → BlankCol i x) : ∃ bs bs' as, AlikeLines 0 i i' bs bs' as := by
  have hw := h.wide
  have hhi := h.high
  have hs : i.bounds.w * i.bounds.h + i.bounds.w ≤ 2 ^ 32 := by
    have := Nat.mul_le_mul (show i.bounds.w ≤ i'.bounds.w by omega) (show i.bounds.h ≤ i'.bounds.h by omega)
    omega
  -- the parts
  obtain ⟨a, _, wa, ba, pa⟩ := C01_section i q.wf 0 0 ⟨p, i.bounds.h⟩ (by omega) (by omega) (by show 0 + p ≤ _; omega)
    (by show 0 + i.bounds.h ≤ _; omega)
  obtain ⟨b, _, wb, bb, pb⟩ := C01_section i q.wf p 0 ⟨i.bounds.w - p, i.bounds.h⟩ (by omega) (by omega)
    (by show p + (i.bounds.w - p) ≤ _; omega) (by show 0 + i.bounds.h ≤ _; omega)
  obtain ⟨b', _, wb', bb', pb'⟩ := C01_section i' q'.wf p 0 ⟨i'.bounds.w - p, i.bounds.h⟩ (by omega) (by omega)
    (by show p + (i'.bounds.w - p) ≤ _; omega) (by show 0 + i.bounds.h ≤ _; omega)
  have aw : a.bounds.w = p := by rw [ba]
  have ah : a.bounds.h = i.bounds.h := by rw [ba]
  have bw : b.bounds.w = i.bounds.w - p := by rw [bb]
  have bh : b.bounds.h = i.bounds.h := by rw [bb]
  have bw' : b'.bounds.w = i'.bounds.w - p := by rw [bb']
  have bh' : b'.bounds.h = i.bounds.h := by rw [bb']
  have m : Beside a b i := by
    refine ⟨⟨by omega, by omega, ?_⟩, ⟨by omega, by omega, ?_⟩, by omega⟩
    · intro x y hx hy
      have := pa x y (by show x < p; omega) (by show y < i.bounds.h; omega)
      rw [this, Nat.zero_add, Nat.zero_add, Nat.add_zero]
    · intro x y hx hy
      have := pb x y (by show x < i.bounds.w - p; omega) (by show y < i.bounds.h; omega)
      rw [this, Nat.zero_add, aw, Nat.add_comm]
  have m' : Beside a b' i' := by
    refine ⟨⟨by omega, by omega, ?_⟩, ⟨by omega, by omega, ?_⟩, by omega⟩
    · intro x y hx hy
      have := pa x y (by show x < p; omega) (by show y < i.bounds.h; omega)
      rw [this, Nat.zero_add, Nat.zero_add, Nat.add_zero]
      exact h.before x y (by omega) (by omega)
    · intro x y hx hy
      have := pb' x y (by show x < i'.bounds.w - p; omega) (by show y < i.bounds.h; omega)
      rw [this, Nat.zero_add, aw, Nat.add_comm]
  have ablank : ∀ x, p ≤ x + 5 → x < p → BlankCol a x := by
    intro x h1 h2
    have := (m.front.blank (x := x) (by omega)).1
    rw [Nat.add_zero] at this
    exact this (hb x h1 h2)
  have hr : BlankCol a (a.bounds.w - 1) := ablank _ (by omega) (by omega)
  have sizes : ∀ c : Image, c.bounds.w ≤ i'.bounds.w → c.bounds.h = i.bounds.h → c.bounds.w * c.bounds.h + c.bounds.w ≤ W32 := by
    intro c h1 h2
    have := Nat.mul_le_mul h1 (show c.bounds.h ≤ i'.bounds.h by omega)
    show _ ≤ 2 ^ 32
    omega
  obtain ⟨as, ea, _, ka, _⟩ := C13_segmentation_partial a wa (by omega) (by omega) (sizes a (by omega) ah) (.inl (by omega))
  obtain ⟨cs, eb, _, kb, _⟩ := C13_segmentation_partial b wb (by omega) (by omega) (sizes b (by omega) bh) (.inl (by omega))
  -- the letters behind the new columns
  have mbk : Part k b b' := by
    refine ⟨by omega, by omega, ?_⟩
    intro x y hx hy
    rw [pb x y (by show x < i.bounds.w - p; omega) (by show y < i.bounds.h; omega),
      pb' _ _ (by show x + k < i'.bounds.w - p; omega) (by show y < i.bounds.h; omega), Nat.zero_add,
      show p + (x + k) = p + x + k by omega]
    exact h.behind (p + x) y (by omega) (by omega) (by omega)
  have eb' : segment b' = .ok (cs.map (movedBox k 0)) := by
    by_cases hk : k = 0
    · subst hk
      have e : b' = b := by
        have e0 : b'.bounds = b.bounds := by rw [bb, bb', hw]; rfl
        have := wb.len
        have := wb'.len
        obtain ⟨bn, bd⟩ := b
        obtain ⟨bn', bd'⟩ := b'
        dsimp only at e0
        subst e0
        congr 1
        apply List.ext_getElem?
        intro n
        by_cases hn : n < bn'.w * bn'.h
        · have hwp : 0 < bn'.w := by
            cases hz : bn'.w with
            | zero => rw [hz] at hn; omega
            | succ z => omega
          have y1 : n / bn'.w < bn'.h := Nat.div_lt_of_lt_mul hn
          have x1 : n % bn'.w < bn'.w := Nat.mod_lt _ hwp
          have := mbk.inside (n % bn'.w) (n / bn'.w) x1 y1
          rw [Nat.add_zero, pix_eq x1 y1, pix_eq x1 y1] at this
          dsimp only at this
          rw [show n / bn'.w * bn'.w + n % bn'.w = n by rw [Nat.mul_comm]; exact Nat.div_add_mod n _] at this
          exact this
        · rw [List.getElem?_eq_none (by simp_all), List.getElem?_eq_none (by simp_all)]
      rw [e, eb]
      congr 1
      conv => lhs; rw [← List.map_id cs]
      rfl
    · obtain ⟨d, _, wd, bd, pd⟩ := C01_section i' q'.wf p 0 ⟨k, i.bounds.h⟩ (by omega) (by omega)
        (by show p + k ≤ _; omega) (by show 0 + i.bounds.h ≤ _; omega)
      have dw : d.bounds.w = k := by rw [bd]
      have dh : d.bounds.h = i.bounds.h := by rw [bd]
      have md' : Part p d i' := by
        refine ⟨by omega, by omega, ?_⟩
        intro x y hx hy
        have := pd x y (by show x < k; omega) (by show y < i.bounds.h; omega)
        rw [this, Nat.zero_add, Nat.add_comm]
      have dblank : ∀ x, x < d.bounds.w → BlankCol d x := by
        intro x hx
        exact (md'.blank hx).1 (h.blank _ (by omega) (by omega))
      have mb : Beside d b b' := by
        refine ⟨⟨by omega, by omega, ?_⟩, ⟨by omega, by omega, ?_⟩, by omega⟩
        · intro x y hx hy
          rw [pd x y (by show x < k; omega) (by show y < i.bounds.h; omega),
            pb' _ _ (by show x + 0 < i'.bounds.w - p; omega) (by show y < i.bounds.h; omega), Nat.add_zero]
        · rw [dw]
          exact mbk.inside
      have := mb.segment (dblank _ (by omega)) wd wb wb' (by omega) (by omega) (by omega) (sizes b' (by omega) bh')
        (segment_blank wd (by omega) (by omega) (sizes d (by omega) dh) dblank) eb
      rw [this, dw]
      rfl
  have e1 := m.segment hr wa wb q.wf (by omega) (by omega) hh hs ea eb
  have e2 := m'.segment hr wa wb' q'.wf (by omega) (by omega) (by omega) hs' ea eb'
  rw [aw] at e1 e2
  obtain ⟨ps, hps, _⟩ := pictures_exist wa as (by
    intro d hd
    obtain ⟨⟨x0, c⟩, _⟩ := ka d hd
    exact ⟨c.wpos, c.hpos, c.right, c.bottom⟩)
  obtain ⟨qs, hqs, _⟩ := pictures_exist wb cs (by
    intro d hd
    obtain ⟨⟨x0, c⟩, _⟩ := kb d hd
    exact ⟨c.wpos, c.hpos, c.right, c.bottom⟩)
  have small : ∀ c : Image, 0 < c.bounds.w → 1 < c.bounds.h → c.bounds.w * c.bounds.h + c.bounds.w ≤ W32 →
      c.bounds.w < W32 ∧ c.bounds.h < W32 := by
    intro c h1 h2 h3
    have g1 := Nat.mul_le_mul_left c.bounds.w (show 2 ≤ c.bounds.h by omega)
    have g2 := Nat.mul_le_mul_right c.bounds.h (show 1 ≤ c.bounds.w by omega)
    omega
  obtain ⟨s1, s2⟩ := small i q.w hh hs
  obtain ⟨s3, s4⟩ := small i' q'.w (by omega) hs'
  obtain ⟨s5, s6⟩ := small b' (by omega) (by omega) (sizes b' (by omega) bh')
  have e0 : as.map (movedBox 0 0) = as := by
    conv => rhs; rw [← List.map_id as]
    rfl
  have f1 := m.front.pictures wa q.wf s1 s2 (fun d hd => (ka d hd).1) hps
  have f2 := m'.front.pictures wa q'.wf s3 s4 (fun d hd => (ka d hd).1) hps
  rw [e0] at f1 f2
  have g1 := m.back.pictures wb q.wf s1 s2 (fun d hd => (kb d hd).1) hqs
  have g2 := m'.back.pictures wb' q'.wf s3 s4 (segment_boxes wb' (by omega) (by omega) (sizes b' (by omega) bh') eb')
    (mbk.pictures wb wb' s5 s6 (fun d hd => (kb d hd).1) hqs)
  rw [aw] at g1 g2
  refine ⟨_, _, ps ++ qs, e1, e2, pictures_append f1 g1, pictures_append f2 g2, ?_, ?_⟩
  · simp [List.map_append, List.map_map, Function.comp_def, movedBox]
  · intro j
    refine gap_append h5 ?_ rfl j
    intro d hd
    obtain ⟨⟨x0, c⟩, _⟩ := ka d hd
    have c1 := c.right
    have c2 := charBox_last c
    have c3 := c.wpos
    apply Decidable.byContradiction
    intro hn
    exact c2 (ablank _ (by omega) (by omega))

/-- **C100**, a wider or narrower space: `k` blank columns put in behind five blank ones (or taken out so that five remain) do
not change what is read of a line of two rows or more. -/
theorem C100_wider {P : Type} [Dbl P] (S : StdSort) (f : ProgFiles) (image' : FileEnv) (p k : Nat) (i i' : Image)
    (hi : loadImage f.image 128 = .ok i) (hi' : loadImage image' 128 = .ok i') (h : Widened p k i i')
    (hh : 1 < i.bounds.h) (hs' : i'.bounds.w * i'.bounds.h + i'.bounds.w ≤ 2 ^ 32) (h5 : 5 ≤ p) (hp : p < i.bounds.w)
    (hb : ∀ x, p ≤ x + 5 → x < p → BlankCol i x) :
    program P S { f with image := image' } = program P S f := by
  have hw := h.wide
  have hhi := h.high
  have hs : i.bounds.w * i.bounds.h + i.bounds.w ≤ 2 ^ 32 := by
    have := Nat.mul_le_mul (show i.bounds.w ≤ i'.bounds.w by omega) (show i.bounds.h ≤ i'.bounds.h by omega)
    omega
  obtain ⟨bs, bs', as, ha⟩ := widened_alike (loadImage_picture hi) (loadImage_picture hi') h hh hs' h5 hp hb
  exact C100_letters S f image' i i' bs bs' as hi hi' hs hs' ha

/-! ### Examples -/

/-- A line of blocks and bars two rows high: for every letter the blank columns before it and its width. -/
def spread (ls : List (Nat × Nat)) : Image :=
  let row : List Pixel := (ls.flatMap fun p => List.replicate p.1 45 ++ List.replicate p.2 120) ++ [45]
  ⟨⟨row.length, 2⟩, row ++ row⟩

/-- The line `a! a` set narrowly and widely. -/
theorem spread_alike : AlikeLines 0 (spread [(0, 2), (1, 1), (5, 2)]) (spread [(4, 2), (4, 1), (11, 2)])
    [⟨0, 0, 2, 2⟩, ⟨3, 0, 1, 2⟩, ⟨9, 0, 2, 2⟩] [⟨4, 0, 2, 2⟩, ⟨10, 0, 1, 2⟩, ⟨22, 0, 2, 2⟩]
    [block, ⟨⟨1, 2⟩, [120, 120]⟩, block] := by
  refine ⟨by decide +kernel, by decide +kernel, ⟨by decide +kernel, by decide +kernel, by decide +kernel, trivial⟩,
    ⟨by decide +kernel, by decide +kernel, by decide +kernel, trivial⟩, rfl, ?_⟩
  intro k
  by_cases hk : k < 3
  · have : k = 0 ∨ k = 1 ∨ k = 2 := by omega
    rcases this with rfl | rfl | rfl <;> decide
  · have hn : ∀ l : List Box, l.length = 3 → ¬ Gap l k := by
      rintro l hl ⟨b, e, _⟩
      have := (List.getElem?_eq_some_iff.1 e).1
      omega
    exact iff_of_false (hn _ rfl) (hn _ rfl)

example : program Frac insertionSort (lessonFiles (ppm (spread [(4, 2), (4, 1), (11, 2)]))) = .ok ⟨[97, 33, 32, 97], 0, 3⟩ := by
  have := C100_letters (P := Frac) insertionSort (lessonFiles (ppm (spread [(0, 2), (1, 1), (5, 2)])))
    (ppm (spread [(4, 2), (4, 1), (11, 2)])) _ _ _ _ _ (by decide +kernel) (by decide +kernel) (by decide) (by decide)
    spread_alike
  refine Eq.trans this ?_
  decide +kernel

/-- The limit counts: with one more column before the bar there is one more space; and five columns before the first letter
are a space, without which that behind it is lost (C63). -/
theorem C100_limit :
    program Frac insertionSort (lessonFiles (ppm (spread [(0, 2), (5, 1), (5, 2)]))) = .ok ⟨[97, 32, 33, 32, 97], 0, 3⟩ ∧
    program Frac insertionSort (lessonFiles (ppm (spread [(4, 1), (5, 2), (1, 1)]))) = .ok ⟨[33, 97, 33], 0, 3⟩ ∧
    program Frac insertionSort (lessonFiles (ppm (spread [(5, 1), (5, 2), (1, 1)]))) = .ok ⟨[33, 32, 97, 33], 0, 3⟩ := by
  refine ⟨?_, ?_, ?_⟩ <;> decide +kernel

/-- Three more columns in the gap of `!`, `a!`. -/
example : program Frac insertionSort (lessonFiles (ppm (spread [(0, 1), (8, 2), (1, 1)]))) = .ok ⟨[33, 97, 33], 0, 3⟩ := by
  have hw : Widened 6 3 (spread [(0, 1), (5, 2), (1, 1)]) (spread [(0, 1), (8, 2), (1, 1)]) := by
    refine ⟨rfl, rfl, ?_, ?_, ?_⟩
    · have : ∀ x < 6, ∀ y < 2, pix (spread [(0, 1), (8, 2), (1, 1)]) x y = pix (spread [(0, 1), (5, 2), (1, 1)]) x y := by
        decide +kernel
      exact fun x y hx hy => this x hx y hy
    · have : ∀ x < 11, ∀ y < 2, 6 ≤ x →
          pix (spread [(0, 1), (8, 2), (1, 1)]) (x + 3) y = pix (spread [(0, 1), (5, 2), (1, 1)]) x y := by
        decide +kernel
      exact fun x y hx hx' hy => this x hx' y hy hx
    · intro x h1 h2
      apply blank_of
      have : ∀ x < 9, 6 ≤ x → ∀ y < 2, letter (spread [(0, 1), (8, 2), (1, 1)]) x y = false := by decide +kernel
      exact this x h2 h1
  have := C100_wider (P := Frac) insertionSort (lessonFiles (ppm (spread [(0, 1), (5, 2), (1, 1)])))
    (ppm (spread [(0, 1), (8, 2), (1, 1)])) 6 3 _ _ (by decide +kernel) (by decide +kernel) hw (by decide) (by decide) (by decide)
    (by decide) (by
      intro x h1 h2
      apply blank_of
      have : ∀ x < 6, 6 ≤ x + 5 → ∀ y < 2, letter (spread [(0, 1), (5, 2), (1, 1)]) x y = false := by decide +kernel
      exact this x h2 h1)
  refine Eq.trans this ?_
  decide +kernel

end Ppocr.Props

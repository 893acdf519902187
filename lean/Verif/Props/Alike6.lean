import Verif.Proofs.Alike6
import Verif.Proofs.MarginsLearn
import Verif.Props.Alike
import Verif.Props.Letter8
import Verif.Props.Learn6

/-! # What `extract_text6` and `extract_text8` print depends on the letters of a line and its spaces (C102) -/

namespace Ppocr.Props
open Ppocr Spec

/-! ### Helper lemmas -/

/-- The ends of the letters. -/
theorem boxes_small {i : Image} (q : Picture i) (hs : i.bounds.w * i.bounds.h + i.bounds.w ≤ 2 ^ 32) {bs : List Box}
    (e : segment i = .ok bs) : ∀ b ∈ bs, b.x + b.w + 4 < W32 := by
  intro b hb
  obtain ⟨x0, c⟩ := segment_boxes q.wf q.w q.h hs e b hb
  have c1 := c.right
  have q2 := q.h
  have w1 := Nat.mul_le_mul_left i.bounds.w (show 1 ≤ i.bounds.h by omega)
  show _ < 2 ^ 32
  omega

theorem program6_image {f : ProgFiles} {image' : FileEnv} {i i' : Image} (S : StdSort) (hi : loadImage f.image 128 = .ok i)
    (hi' : loadImage image' 128 = .ok i') (h : ∀ compute E, extract6 compute E i' = extract6 compute E i) :
    program6 S { f with image := image' } = program6 S f := by
  unfold program6
  dsimp only
  refine res_bind_congr fun E => res_bind_congr fun d => res_bind_congr fun gs => ?_
  by_cases hg : gs.length ≠ d.size
  · rw [if_pos hg, if_pos hg]
  · rw [if_neg hg, if_neg hg]
    refine res_bind_congr fun ws => res_bind_congr fun wd => ?_
    obtain ⟨ws, d⟩ := wd
    dsimp only
    refine res_bind_congr fun t => ?_
    rw [hi, hi', Res.ok_bind, Res.ok_bind, h]

theorem program8_image {P : Type} [Prob8 P] {f : ProgFiles} {image' : FileEnv} {i i' : Image} (S : StdSort) (mv : List Nat → List Nat)
    (hi : loadImage f.image 128 = .ok i) (hi' : loadImage image' 128 = .ok i')
    (h : ∀ compute E, extract6 compute E i' = extract6 compute E i) :
    program8 P S mv { f with image := image' } = program8 P S mv f := by
  unfold program8
  rw [show tables8 S mv { f with image := image' } = tables8 S mv f from rfl]
  refine res_bind_congr fun q => ?_
  obtain ⟨E, d, p, bw⟩ := q
  dsimp only
  refine res_bind_congr fun t => ?_
  rw [hi, hi', Res.ok_bind, Res.ok_bind, h]

/-- The letters behind margins. -/
theorem segmentFrom_margins {left top : Nat} {i i' : Image} (m : Margins left top i i')
    (hr : i'.bounds.w = left + i.bounds.w ∨ BlankCol i (i.bounds.w - 1)) (wf : i.WF) (wf' : i'.WF) (hp : 0 < i.bounds.h)
    (hh : RowsHeld i i') (hs : i.bounds.w * i.bounds.h + i.bounds.w ≤ W32)
    (hs' : i'.bounds.w * i'.bounds.h + i'.bounds.w ≤ W32) (h4 : i'.bounds.w + 4 < W32) :
    ∀ (fuel fuel' x x' : Nat), i.bounds.w < fuel + x → i'.bounds.w < fuel' + x' → x < i.bounds.w →
      x' ≤ x + left → (∀ c, x' ≤ c → c < x + left → BlankCol i' c) →
      segmentFrom i' fuel' x' = segmentFrom i fuel x >>= fun bs => .ok (bs.map (movedBox left top)) := by
  intro fuel
  induction fuel with
  | zero => intro fuel' x x' h; omega
  | succ fuel ih =>
    intro fuel' x x' h1 h2 hx hx' hb
    have hwd := m.wide
    obtain ⟨f, rfl⟩ : ∃ f, fuel' = f + 1 := ⟨fuel' - 1, by omega⟩
    unfold segmentFrom
    rcases m.nextBox hr wf wf' hp hh hs hs' hx hx' hb with ⟨b, e, ht, hc, e'⟩ | ⟨b, b', e, ht, e', ht'⟩ | ⟨e, e'⟩
    · have ht' : (movedBox left top b).truthy = true := ht
      have hp := hc.wpos
      have hl := hc.left
      have hn := hc.notLast
      have ex : uadd b.x b.w = b.x + b.w := uadd_eq (by omega)
      have ex' : uadd (movedBox left top b).x (movedBox left top b).w = b.x + b.w + left := by
        show uadd (b.x + left) b.w = _
        rw [uadd_eq (by omega)]
        omega
      rw [e, e', Res.ok_bind, Res.ok_bind, if_pos ht, if_pos ht', ex, ex',
        ih f (b.x + b.w) (b.x + b.w + left) (by omega) (by omega) (by omega) (by omega) (by intro c _ _; omega)]
      simp only [Res.bind_assoc, Res.pure_eq, Res.ok_bind, List.map_cons]
    · rw [e, e', Res.ok_bind, Res.ok_bind, if_neg (by rw [ht']; decide), if_neg (by rw [ht]; decide)]
      rfl
    · rw [e, e']
      rfl

theorem pictures_moved {left top : Nat} {i i' : Image}
    (h : ∀ b : Box, (∃ x0, CharBox i x0 b) →
      i'.section (b.x + left) (b.y + top) b.bounds = i.section b.x b.y b.bounds) : ∀ {bs : List Box} {as : List Image},
    (∀ b ∈ bs, ∃ x0, CharBox i x0 b) → Pictures i bs as → Pictures i' (bs.map (movedBox left top)) as
  | [], [], _, _ => trivial
  | [], _ :: _, _, hp => hp.elim
  | _ :: _, [], _, hp => hp.elim
  | b :: _, _ :: _, hb, hp => by
    refine ⟨?_, pictures_moved h (fun c hc => hb c (by simp [hc])) hp.2⟩
    rw [← hp.1]
    exact h b (hb b (by simp))

/-- The letters behind margins are the same. -/
theorem margins_same {left top : Nat} {i i' : Image} (q : Picture i) (q' : Picture i') (m : Margins left top i i')
    (hh : 1 < i.bounds.h) (hs' : i'.bounds.w * i'.bounds.h + i'.bounds.w ≤ 2 ^ 32)
    (hr : i'.bounds.w = left + i.bounds.w ∨ BlankCol i (i.bounds.w - 1)) : ∃ bs bs' as, SameLetters i i' bs bs' as := by
  have hw := m.wide
  have hi := m.high
  have q1 := q.w
  have q1' := q'.w
  have hs : i.bounds.w * i.bounds.h + i.bounds.w ≤ W32 := by
    have := Nat.mul_le_mul (show i.bounds.w ≤ i'.bounds.w by omega) (show i.bounds.h ≤ i'.bounds.h by omega)
    show _ ≤ 2 ^ 32
    omega
  have g1 := Nat.mul_le_mul_left i'.bounds.w (show 2 ≤ i'.bounds.h by omega)
  have g2 := Nat.mul_le_mul_right i'.bounds.h (show 1 ≤ i'.bounds.w by omega)
  have hW : W32 = 4294967296 := rfl
  obtain ⟨bs, e, _, hb, _⟩ := C13_segmentation_partial i q.wf q1 (by omega) hs (.inl hh)
  have e' : segment i' = .ok (bs.map (movedBox left top)) := by
    have := segmentFrom_margins m hr q.wf q'.wf (by omega) (.inl hh) hs hs' (by omega) (i.bounds.w + 1) (i'.bounds.w + 1) 0 0
      (by omega) (by omega) q1 (by omega) (fun c _ h => m.blank_left (by omega))
    unfold segment at e ⊢
    rw [this, e, Res.ok_bind]
  obtain ⟨as, hp, _⟩ := pictures_exist q.wf bs (by
    intro d hd
    obtain ⟨⟨x0, c⟩, _⟩ := hb d hd
    exact ⟨c.wpos, c.hpos, c.right, c.bottom⟩)
  refine ⟨bs, _, as, e, e', hp, pictures_moved (fun b hc => ?_) (fun b h => (hb b h).1) hp, ?_⟩
  · obtain ⟨_, c⟩ := hc
    exact m.section_eq q.wf q'.wf (by omega) (by omega) c.wpos c.hpos c.right c.bottom
  · intro k hk
    obtain ⟨n, rfl⟩ : ∃ n, k = n + 1 := ⟨k - 1, by omega⟩
    unfold Gap
    simp only [endBefore, List.getElem?_map]
    cases e1 : bs[n + 1]? with
    | none => simp
    | some c =>
      have : n + 1 < bs.length := (List.getElem?_eq_some_iff.1 e1).1
      obtain ⟨c', e2⟩ : ∃ c', bs[n]? = some c' := ⟨bs[n]'(by omega), by simp⟩
      rw [e2]
      simp only [Option.map_some, Option.some.injEq, exists_eq_left', Option.getD_some, movedBox]
      omega

/-! ### The claim -/

/-- **C102.** Two line images that hold the same letters, and whose spaces fall between the same letters, are answered alike by
`extract_text6` and by `extract_text8`: the same three results or undefined behaviour for both, whatever the other files hold.
Neither the rows nor the columns the letters stand in count, nor the gap before the first letter. -/
theorem C102_letters {P : Type} [Prob8 P] (S : StdSort) (mv : List Nat → List Nat) (f : ProgFiles) (image' : FileEnv) (i i' : Image)
    (bs bs' : List Box) (as : List Image) (hi : loadImage f.image 128 = .ok i) (hi' : loadImage image' 128 = .ok i')
    (hs : i.bounds.w * i.bounds.h + i.bounds.w ≤ 2 ^ 32) (hs' : i'.bounds.w * i'.bounds.h + i'.bounds.w ≤ 2 ^ 32)
    (h : SameLetters i i' bs bs' as) :
    program6 S { f with image := image' } = program6 S f ∧ program8 P S mv { f with image := image' } = program8 P S mv f := by
  have key : ∀ compute E, extract6 compute E i' = extract6 compute E i := fun compute E =>
    extract6_same compute E h (boxes_small (loadImage_picture hi) hs h.letters) (boxes_small (loadImage_picture hi') hs' h.letters')
  exact ⟨program6_image S hi hi' key, program8_image S mv hi hi' key⟩

/-- **C102**, margins: blank rows and columns on any side of a line of two rows or more do not change what is printed. Columns
may be added on the right if the last one is blank already (the last column is not searched for letters, C13). -/
theorem C102_margins {P : Type} [Prob8 P] (S : StdSort) (mv : List Nat → List Nat) (f : ProgFiles) (image' : FileEnv)
    (left top : Nat) (i i' : Image) (hi : loadImage f.image 128 = .ok i) (hi' : loadImage image' 128 = .ok i')
    (m : Margins left top i i') (hh : 1 < i.bounds.h) (hs' : i'.bounds.w * i'.bounds.h + i'.bounds.w ≤ 2 ^ 32)
    (hr : i'.bounds.w = left + i.bounds.w ∨ BlankCol i (i.bounds.w - 1)) :
    program6 S { f with image := image' } = program6 S f ∧ program8 P S mv { f with image := image' } = program8 P S mv f := by
  have hw := m.wide
  have hhi := m.high
  have hs : i.bounds.w * i.bounds.h + i.bounds.w ≤ 2 ^ 32 := by
    have := Nat.mul_le_mul (show i.bounds.w ≤ i'.bounds.w by omega) (show i.bounds.h ≤ i'.bounds.h by omega)
    omega
  obtain ⟨bs, bs', as, h⟩ := margins_same (loadImage_picture hi) (loadImage_picture hi') m hh hs' hr
  exact C102_letters S mv f image' i i' bs bs' as hi hi' hs hs' h

/-- **C102**, a wider or narrower space: `k` blank columns put in behind five blank ones (or taken out so that five remain) do
not change what is printed of a line of two rows or more. -/
theorem C102_wider {P : Type} [Prob8 P] (S : StdSort) (mv : List Nat → List Nat) (f : ProgFiles) (image' : FileEnv)
    (p k : Nat) (i i' : Image) (hi : loadImage f.image 128 = .ok i) (hi' : loadImage image' 128 = .ok i') (h : Widened p k i i')
    (hh : 1 < i.bounds.h) (hs' : i'.bounds.w * i'.bounds.h + i'.bounds.w ≤ 2 ^ 32) (h5 : 5 ≤ p) (hp : p < i.bounds.w)
    (hb : ∀ x, p ≤ x + 5 → x < p → BlankCol i x) :
    program6 S { f with image := image' } = program6 S f ∧ program8 P S mv { f with image := image' } = program8 P S mv f := by
  have hw := h.wide
  have hhi := h.high
  have hs : i.bounds.w * i.bounds.h + i.bounds.w ≤ 2 ^ 32 := by
    have := Nat.mul_le_mul (show i.bounds.w ≤ i'.bounds.w by omega) (show i.bounds.h ≤ i'.bounds.h by omega)
    omega
  obtain ⟨bs, bs', as, ha⟩ := widened_alike (loadImage_picture hi) (loadImage_picture hi') h hh hs' h5 hp hb
  exact C102_letters S mv f image' i i' bs bs' as hi hi' hs hs'
    ⟨ha.letters, ha.letters', ha.pictures, ha.pictures', fun k _ => ha.spaces k⟩

/-! ### Helper lemmas: the first two results -/

theorem extract6_unspaced {compute : Image → Image → Res Letter6} {E : List FNode} {i i' : Image} {bs bs' : List Box} {as : List Image}
    (e : segment i = .ok bs) (e' : segment i' = .ok bs') (hp : Pictures i bs as) (hp' : Pictures i' bs' as) {r r' : Answer6}
    (h : extract6 compute E i = .ok r) (h' : extract6 compute E i' = .ok r') : r'.res1 = r.res1 ∧ r'.res2 = r.res2 := by
  unfold extract6 at h h'
  obtain ⟨l, h1, h⟩ := Res.bind_eq_ok.1 h
  obtain ⟨l', h1', h'⟩ := Res.bind_eq_ok.1 h'
  obtain ⟨t, _, h⟩ := Res.bind_eq_ok.1 h
  obtain ⟨t', _, h'⟩ := Res.bind_eq_ok.1 h'
  cases h
  cases h'
  have := lineLoop6_unspaced compute _ _ 0 0 bs bs' as _ _ l l' e e' hp hp' rfl h1 h1'
  simp only [unspaced, Line6.mk.injEq] at this
  exact ⟨this.2.2.2.1, this.2.2.2.2⟩

/-- **C102**, the first two results do not depend on the spaces either: lines with the same letters have the same `result1` and
`result2`, wherever the letters stand. -/
theorem C102_results (S : StdSort) (f : ProgFiles) (image' : FileEnv) (i i' : Image) (bs bs' : List Box) (as : List Image)
    (hi : loadImage f.image 128 = .ok i) (hi' : loadImage image' 128 = .ok i') (e : segment i = .ok bs)
    (e' : segment i' = .ok bs') (hp : Pictures i bs as) (hp' : Pictures i' bs' as) (r r' : Answer6)
    (h : program6 S f = .ok r) (h' : program6 S { f with image := image' } = .ok r') : r'.res1 = r.res1 ∧ r'.res2 = r.res2 := by
  unfold program6 at h h'
  obtain ⟨E, e1, h⟩ := Res.bind_eq_ok.1 h
  obtain ⟨d, e2, h⟩ := Res.bind_eq_ok.1 h
  obtain ⟨gs, e3, h⟩ := Res.bind_eq_ok.1 h
  dsimp only at h'
  rw [e1, Res.ok_bind, e2, Res.ok_bind, e3, Res.ok_bind] at h'
  by_cases hg : gs.length ≠ d.size
  · rw [if_pos hg] at h
    cases h
  · rw [if_neg hg] at h h'
    obtain ⟨ws, e4, h⟩ := Res.bind_eq_ok.1 h
    obtain ⟨⟨us, d'⟩, e5, h⟩ := Res.bind_eq_ok.1 h
    dsimp only at h
    obtain ⟨t, e6, h⟩ := Res.bind_eq_ok.1 h
    rw [e4, Res.ok_bind, e5, Res.ok_bind] at h'
    dsimp only at h'
    rw [e6, Res.ok_bind, hi', Res.ok_bind] at h'
    rw [hi, Res.ok_bind] at h
    exact extract6_unspaced e e' hp hp' h h'

/-! ### Examples -/

/-- The files made from the line `blockLine`, shown as `aa éé`. -/
def blockFiles (image : FileEnv) : ProgFiles :=
  let g := (writeGlyphs 128 [⟨ppm blockLine, some (bytes "a a é é"), bytes "font"⟩]).out
  ⟨some g, match writeDatas (some g) with | .ok r => some r.2 | _ => none, image, none, none⟩

/-- Margins on all four sides, a space in front. -/
theorem blockLine_margins : Margins 7 2 blockLine (padded 7 2 1 1 blockLine) :=
  margins_of (by decide) (by decide) (by decide +kernel) (by decide +kernel)

theorem blockLine_last : BlankCol blockLine (blockLine.bounds.w - 1) := by
  apply blank_of
  decide +kernel

example : program6 insertionSort (blockFiles (ppm (padded 7 2 1 1 blockLine))) =
    .ok ⟨bytes "a a é é ", bytes "a a é é ", bytes "aa éé"⟩ := by
  have := (C102_margins (P := Ratio8) insertionSort (fun _ => []) (blockFiles (ppm blockLine)) (ppm (padded 7 2 1 1 blockLine)) 7 2 _ _
    (by decide +kernel) (by decide +kernel) blockLine_margins (by decide) (by decide) (.inr blockLine_last)).1
  refine Eq.trans this ?_
  decide +kernel

/-- The letters of `blockLine` with a space behind each: only the text differs. -/
def blockWide : Image := ⟨⟨30, 3⟩,
  let row (l r : Pixel) := List.replicate 3 l ++ List.replicate 5 45 ++ List.replicate 3 l ++ List.replicate 5 45 ++ List.replicate 2 r ++
    List.replicate 5 45 ++ List.replicate 2 r ++ List.replicate 5 45
  row 120 120 ++ row 120 120 ++ row 120 45⟩

example : program6 insertionSort (blockFiles (ppm blockLine)) = .ok ⟨bytes "a a é é ", bytes "a a é é ", bytes "aa éé"⟩ ∧
    program6 insertionSort (blockFiles (ppm blockWide)) = .ok ⟨bytes "a a é é ", bytes "a a é é ", bytes "a a é é"⟩ := by
  constructor <;> decide +kernel

/-- The same letters. -/
example : ∃ bs bs' as, segment blockLine = .ok bs ∧ segment blockWide = .ok bs' ∧ Pictures blockLine bs as ∧ Pictures blockWide bs' as ∧
    as.length = 4 := by
  refine ⟨[⟨0, 0, 3, 3⟩, ⟨4, 0, 3, 3⟩, ⟨12, 0, 2, 2⟩, ⟨15, 0, 2, 2⟩], [⟨0, 0, 3, 3⟩, ⟨8, 0, 3, 3⟩, ⟨16, 0, 2, 2⟩, ⟨23, 0, 2, 2⟩],
    [⟨⟨3, 3⟩, List.replicate 9 120⟩, ⟨⟨3, 3⟩, List.replicate 9 120⟩, ⟨⟨2, 2⟩, List.replicate 4 120⟩, ⟨⟨2, 2⟩, List.replicate 4 120⟩],
    by decide +kernel, by decide +kernel, ?_, ?_, rfl⟩
  · exact ⟨by decide +kernel, by decide +kernel, by decide +kernel, by decide +kernel, trivial⟩
  · exact ⟨by decide +kernel, by decide +kernel, by decide +kernel, by decide +kernel, trivial⟩

/-- A wider space, in `extract_text8`. -/
example : ∀ f, files8 [⟨⟨⟨2, 2⟩, List.replicate 4 120⟩, [⟨bytes "o", bytes "f", 0⟩]⟩] (spread [(0, 2), (5, 2)]) = .ok f →
    program8 Ratio8 insertionSort (fun _ => []) f = .ok ⟨bytes "o o ", bytes "o o ", bytes "o o"⟩ ∧
    program8 Ratio8 insertionSort (fun _ => []) { f with image := ppm (spread [(0, 2), (9, 2)]) } =
      .ok ⟨bytes "o o ", bytes "o o ", bytes "o o"⟩ := by
  intro f hf
  have h1 : (files8 [⟨⟨⟨2, 2⟩, List.replicate 4 120⟩, [⟨bytes "o", bytes "f", 0⟩]⟩] (spread [(0, 2), (5, 2)]) >>= fun f =>
      program8 Ratio8 insertionSort (fun _ => []) f) = .ok ⟨bytes "o o ", bytes "o o ", bytes "o o"⟩ := by decide +kernel
  rw [hf, Res.ok_bind] at h1
  have hfi : f.image = ppm (spread [(0, 2), (5, 2)]) := by
    unfold files8 at hf
    obtain ⟨d, _, hf⟩ := Res.bind_eq_ok.1 hf
    obtain ⟨tg, _, hf⟩ := Res.bind_eq_ok.1 hf
    cases hf
    rfl
  have hw : Widened 7 4 (spread [(0, 2), (5, 2)]) (spread [(0, 2), (9, 2)]) := by
    refine ⟨rfl, rfl, ?_, ?_, ?_⟩
    · have : ∀ x < 7, ∀ y < 2, pix (spread [(0, 2), (9, 2)]) x y = pix (spread [(0, 2), (5, 2)]) x y := by decide +kernel
      exact fun x y hx hy => this x hx y hy
    · have : ∀ x < 10, ∀ y < 2, 7 ≤ x → pix (spread [(0, 2), (9, 2)]) (x + 4) y = pix (spread [(0, 2), (5, 2)]) x y := by
        decide +kernel
      exact fun x y hx hx' hy => this x hx' y hy hx
    · intro x h1 h2
      apply blank_of
      have : ∀ x < 11, 7 ≤ x → ∀ y < 2, letter (spread [(0, 2), (9, 2)]) x y = false := by decide +kernel
      exact this x h2 h1
  refine ⟨h1, ?_⟩
  rw [← h1]
  exact (C102_wider insertionSort _ f (ppm (spread [(0, 2), (9, 2)])) 7 4 _ _ (by rw [hfi]; decide +kernel) (by decide +kernel) hw
    (by decide) (by decide) (by decide) (by decide) (by
      intro x h1 h2
      apply blank_of
      have : ∀ x < 7, 7 ≤ x + 5 → ∀ y < 2, letter (spread [(0, 2), (5, 2)]) x y = false := by decide +kernel
      exact this x h2 h1)).2

end Ppocr.Props

import Verif.Proofs.EnlargedLine
import Verif.Props.Enlarged
import Verif.Props.Margins

/-! # C120: the letters of a line scanned larger -/

namespace Ppocr.Props
open Ppocr Spec

/-- **C120, boxes**: when the line has two rows or more and its last column is blank, the boxes of the line blown up are
the boxes of the line blown up. For the other lines see `C120_exact`. -/
theorem C120_boxes {k : Nat} {i j : Image} (e : Enlarged k i j) (wi : i.WF) (wj : j.WF)
    (hw : 0 < i.bounds.w) (hh : 1 < i.bounds.h) (hsz : j.bounds.w * j.bounds.h + j.bounds.w ≤ W32)
    (hlast : BlankCol i (i.bounds.w - 1)) :
    segment j = (segment i >>= fun bs => .ok (bs.map (scaledBox k))) := by
  have := segmentFrom_enlarged e wi wj hh hsz hlast (i.bounds.w + 1) (j.bounds.w + 1) 0 hw (by omega) (by omega)
  rw [Nat.mul_zero] at this
  exact this

theorem box_bounds {i : Image} {x0 : Nat} {b : Box} (h : CharBox i x0 b) :
    b.w ≤ i.bounds.w ∧ b.h ≤ i.bounds.h := by
  have h1 := h.right
  have h2 := h.bottom
  omega

/-- A piece of a small enough picture is small enough. -/
theorem sized_part {i a : Image} (si : Sized i) (wa : a.WF) (hw : 0 < a.bounds.w) (hh : 0 < a.bounds.h)
    (h1 : a.bounds.w ≤ i.bounds.w) (h2 : a.bounds.h ≤ i.bounds.h) : Sized a := by
  have ha := Nat.mul_le_mul h1 h2
  have h3 := si.area
  have h4 := si.grav
  have h5 := Nat.mul_le_mul ha (show a.bounds.w + a.bounds.h + 2 ≤ i.bounds.w + i.bounds.h + 2 by omega)
  exact ⟨wa, hw, hh, by omega, by omega⟩

/-- **C120, letters**: the pictures cut out of the larger line are the letters of the line blown up, and each has in the
six columns of `scaleFree` the values of the letter of the line. -/
theorem C120_letters {k : Nat} {i j : Image} (e : Enlarged k i j) (si : Sized i) (sj : Sized j)
    {bs : List Box} (hb : ∀ b ∈ bs, ∃ x0, CharBox i x0 b) :
    ∃ as as', Pictures i bs as ∧ Pictures j (bs.map (scaledBox k)) as' ∧ AllEnlarged k as as' ∧
      ∀ (n : Nat) a a', as[n]? = some a → as'[n]? = some a' → ∃ r r', a.rotate90 = .ok r ∧ a'.rotate90 = .ok r' ∧
        ∀ s ∈ scaleFree, feature s a' r' = feature s a r := by
  induction bs with
  | nil => exact ⟨[], [], trivial, trivial, trivial, by simp⟩
  | cons b bs ih =>
    obtain ⟨as, as', h1, h2, h3, h4⟩ := ih fun c hc => hb c (List.mem_cons_of_mem _ hc)
    obtain ⟨x0, hc⟩ := hb b (List.mem_cons_self ..)
    obtain ⟨a, a', g1, g2, g3, g4⟩ := section_enlarged e si.wf sj.wf hc
    refine ⟨a :: as, a' :: as', ⟨g1, h1⟩, ⟨g3, h2⟩, ⟨g4, h3⟩, ?_⟩
    intro n c c' hn hn'
    cases n with
    | zero =>
      simp only [List.getElem?_cons_zero, Option.some.injEq] at hn hn'
      subst hn hn'
      have p1 := hc.right
      have p2 := hc.bottom
      have p3 := hc.wpos
      have p4 := hc.hpos
      obtain ⟨q, q1, q2, q3, _⟩ := C01_section i si.wf b.x b.y b.bounds (by omega) (by omega) p1 p2
      rw [g1] at q1
      obtain rfl : a = q := by simpa using q1
      have r1 : k * b.x + k * b.w ≤ j.bounds.w := by
        rw [e.wide, ← Nat.mul_add]; exact Nat.mul_le_mul_left _ p1
      have r2 : k * b.y + k * b.h ≤ j.bounds.h := by
        rw [e.high, ← Nat.mul_add]; exact Nat.mul_le_mul_left _ p2
      have r3 : 0 < k * b.w := Nat.mul_pos e.pos p3
      have r4 : 0 < k * b.h := Nat.mul_pos e.pos p4
      obtain ⟨q, u1, u2, u3, _⟩ := C01_section j sj.wf (scaledBox k b).x (scaledBox k b).y
        (scaledBox k b).bounds (by simp only [scaledBox]; omega) (by simp only [scaledBox]; omega) r1 r2
      rw [g3] at u1
      obtain rfl : a' = q := by simpa using u1
      have aw : a.bounds.w = b.w := by rw [q3]; rfl
      have ah : a.bounds.h = b.h := by rw [q3]; rfl
      have aw' : a'.bounds.w = k * b.w := by rw [u3]; rfl
      have ah' : a'.bounds.h = k * b.h := by rw [u3]; rfl
      have sa := sized_part si q2 (by omega) (by omega) (by omega) (by omega)
      have sa' := sized_part sj u2 (by omega) (by omega) (by omega) (by omega)
      obtain ⟨r, hr, _⟩ := C02_rotate90 a q2
      obtain ⟨r', hr', _⟩ := C02_rotate90 a' u2
      exact ⟨r, r', hr, hr', fun s hs => C119_free g4 sa sa' hr hr' hs⟩
    | succ n => exact h4 n c c' hn hn'

/-- A line of the other kind: the letter in the last columns loses one column of two, and one column of four when doubled. -/
theorem C120_last_column :
    segment ⟨⟨2, 2⟩, [120, 120, 120, 120]⟩ = .ok [⟨0, 0, 1, 2⟩] ∧
    segment (enlarge 2 ⟨⟨2, 2⟩, [120, 120, 120, 120]⟩) = .ok [⟨0, 0, 3, 4⟩] := by decide +kernel

/-- Another one: a single row with a blank last column ends on a failed `assert`, two rows do not. -/
theorem C120_one_row :
    segment ⟨⟨2, 1⟩, [120, 45]⟩ = .abort ∧
    segment (enlarge 2 ⟨⟨2, 1⟩, [120, 45]⟩) = .ok [⟨0, 0, 2, 2⟩] := by decide +kernel

/-- **C120, exactly**: for a factor of two or more the boxes are those of the line blown up for no other lines. -/
theorem C120_exact {k : Nat} {i j : Image} (e : Enlarged k i j) (hk : 1 < k) (wi : i.WF) (wj : j.WF)
    (hw : 0 < i.bounds.w) (hh : 0 < i.bounds.h) (hsz : j.bounds.w * j.bounds.h + j.bounds.w ≤ W32) :
    segment j = (segment i >>= fun bs => .ok (bs.map (scaledBox k))) ↔
      1 < i.bounds.h ∧ BlankCol i (i.bounds.w - 1) := by
  constructor
  · intro h
    have hwle : i.bounds.w ≤ j.bounds.w := by rw [e.wide]; exact Nat.le_mul_of_pos_left _ e.pos
    have hle := Nat.mul_le_mul hwle
      (show i.bounds.h ≤ j.bounds.h by rw [e.high]; exact Nat.le_mul_of_pos_left _ e.pos)
    have hhj : 1 < j.bounds.h := by
      rw [e.high]
      have := Nat.mul_le_mul hk hh
      omega
    have hwj : 0 < j.bounds.w := by omega
    obtain ⟨bs', h1, _⟩ := C13_segmentation_partial j wj hwj (by omega) hsz (.inl hhj)
    have hlast : BlankCol i (i.bounds.w - 1) := by
      apply Classical.byContradiction
      intro hn
      obtain ⟨y, hy⟩ := not_blank_iff.mp hn
      obtain ⟨bs, g1, _, g2, _⟩ := C13_segmentation_partial i wi hw hh (by omega) (.inr hn)
      rw [g1, Res.ok_bind] at h
      have hkw : k * i.bounds.w = k * (i.bounds.w - 1) + k := by
        rw [← Nat.mul_succ]; congr 1; omega
      have hl := letter_corner e (x := i.bounds.w - 1) (y := y) e.pos e.pos
      rw [hy] at hl
      obtain ⟨b', hb', hin, _⟩ := C14_coverage_partial j wj (by omega) hsz _ h _ _ (by rw [e.wide]; omega) hl
      obtain ⟨b, hb, rfl⟩ := List.mem_map.mp hb'
      obtain ⟨⟨x0, hc⟩, _⟩ := g2 b hb
      have n1 := hc.notLast
      have n2 : k * (b.x + b.w) ≤ k * (i.bounds.w - 1) := Nat.mul_le_mul_left _ (by omega)
      rw [Nat.mul_add] at n2
      have n3 := hin.2.1
      simp only [scaledBox] at n3
      omega
    refine ⟨?_, hlast⟩
    apply Classical.byContradiction
    intro hn
    have := C13_single_row i wi hw (by omega) (by omega) hlast
    rw [this, h1] at h
    cases h
  · rintro ⟨h1, h2⟩
    exact C120_boxes e wi wj hw h1 hsz h2

/-- The block and the bar, three columns apart. -/
def shortGap : Image := ⟨⟨8, 2⟩, [120, 120, 45, 45, 45, 120, 45, 45, 120, 120, 45, 45, 45, 120, 45, 45]⟩

/-- The text does depend on the size: a line that is read letter by letter is not read when it is doubled. -/
theorem C120_unread :
    program Frac insertionSort (lessonFiles (ppm shortGap)) = .ok ⟨[97, 33], 0, 2⟩ ∧
    program Frac insertionSort (lessonFiles (ppm (enlarge 2 shortGap))) = .ok ⟨[63], 1, 2⟩ := by
  constructor <;> decide +kernel

/-- The boxes of this line three times as large. -/
example : segment (enlarge 3 shortGap) = .ok [⟨0, 0, 6, 6⟩, ⟨15, 0, 3, 6⟩] := by
  have h : segment shortGap = .ok [⟨0, 0, 2, 2⟩, ⟨5, 0, 1, 2⟩] := by decide +kernel
  have hl : BlankCol shortGap (shortGap.bounds.w - 1) := by
    intro y
    by_cases hy : y < 2
    · rcases (show y = 0 ∨ y = 1 by omega) with rfl | rfl <;> decide
    · unfold letter
      rw [pix_none (by intro h; exact hy h.2)]
      rfl
  rw [C120_boxes (enlarge_ok 3 shortGap (by omega)) ⟨by decide, by decide, by decide, by decide⟩
    ⟨by decide +kernel, by decide, by decide, by decide⟩ (by decide) (by decide) (by decide) hl, h]
  rfl

end Ppocr.Props

import Verif.Proofs.Beside
import Verif.Props.MarginsLearn
import Verif.Props.Command

/-! # A line cut into two pictures (C98) -/

namespace Ppocr.Props
open Ppocr Spec

/-- The pictures of a line and of its two parts: the cut is behind a blank column. -/
structure CutUp (a b c : Image) : Prop where
  parts : Beside a b c
  blank : BlankCol a (a.bounds.w - 1)
  rows : 1 < c.bounds.h
  size : c.bounds.w * c.bounds.h + c.bounds.w ≤ 2 ^ 32

/-- The files hold such pictures. -/
structure CutFiles (lum : Nat) (ea eb ec : FileEnv) (a b c : Image) : Prop where
  first : loadImage ea lum = .ok a
  second : loadImage eb lum = .ok b
  whole : loadImage ec lum = .ok c
  cut : CutUp a b c

theorem cutUp_parts {a b c : Image} (h : CutUp a b c) : 1 < a.bounds.h ∧ 1 < b.bounds.h ∧
    a.bounds.w * a.bounds.h + a.bounds.w ≤ W32 ∧ b.bounds.w * b.bounds.h + b.bounds.w ≤ W32 := by
  have h1 := h.parts.front.high
  have h2 := h.parts.back.high
  have h3 := h.parts.wide
  have h4 := h.rows
  have h5 := h.size
  have h6 := Nat.mul_le_mul (show a.bounds.w ≤ c.bounds.w by omega) (show a.bounds.h ≤ c.bounds.h by omega)
  have h7 := Nat.mul_le_mul (show b.bounds.w ≤ c.bounds.w by omega) (show b.bounds.h ≤ c.bounds.h by omega)
  refine ⟨by omega, by omega, ?_, ?_⟩ <;> (show _ ≤ 2 ^ 32; omega)

/-- **C98**, the letters: those of the first part, then those of the second at their places. -/
theorem C98_letters (a b c : Image) (h : CutUp a b c) (ha : a.WF) (hb : b.WF) (hc : c.WF) (h1 : 0 < a.bounds.w)
    (h2 : 0 < b.bounds.w) : ∃ as bs, segment a = .ok as ∧ segment b = .ok bs ∧
      segment c = .ok (as ++ bs.map fun d => ⟨a.bounds.w + d.x, d.y, d.w, d.h⟩) := by
  obtain ⟨p1, p2, p3, p4⟩ := cutUp_parts h
  obtain ⟨as, e1, _⟩ := C13_segmentation_partial a ha h1 (by omega) p3 (.inl p1)
  obtain ⟨bs, e2, _⟩ := C13_segmentation_partial b hb h2 (by omega) p4 (.inl p2)
  refine ⟨as, bs, e1, e2, ?_⟩
  rw [h.parts.segment h.blank ha hb hc h1 h2 h.rows h.size e1 e2]
  congr 2
  apply List.map_congr_left
  intro d _
  show Box.mk _ _ _ _ = _
  rw [Nat.add_comm, Nat.add_zero]

theorem pictures_append {i : Image} : ∀ {bs cs : List Box} {as ds : List Image}, Pictures i bs as → Pictures i cs ds →
    Pictures i (bs ++ cs) (as ++ ds)
  | [], _, [], _, _, h => h
  | [], _, _ :: _, _, h, _ => h.elim
  | _ :: _, _, [], _, h, _ => h.elim
  | _ :: _, _, _ :: _, _, h, h' => ⟨h.1, pictures_append h.2 h'⟩

/-- The letters of the three pictures, cut out. -/
theorem cutFiles_pictures {lum : Nat} {ea eb ec : FileEnv} {a b c : Image} (h : CutFiles lum ea eb ec a b c) :
    ∃ as bs ps qs, segment a = .ok as ∧ Pictures a as ps ∧ segment b = .ok bs ∧ Pictures b bs qs ∧
      segment c = .ok (as ++ bs.map (movedBox a.bounds.w 0)) ∧
      Pictures c (as ++ bs.map (movedBox a.bounds.w 0)) (ps ++ qs) := by
  have ha := loadImage_picture h.first
  have hb := loadImage_picture h.second
  have hc := loadImage_picture h.whole
  obtain ⟨p1, p2, p3, p4⟩ := cutUp_parts h.cut
  have m := h.cut.parts
  obtain ⟨as, e1, _, k1, _⟩ := C13_segmentation_partial a ha.wf ha.w ha.h p3 (.inl p1)
  obtain ⟨bs, e2, _, k2, _⟩ := C13_segmentation_partial b hb.wf hb.w hb.h p4 (.inl p2)
  obtain ⟨ps, hp, _⟩ := pictures_exist ha.wf as (by
    intro d hd
    obtain ⟨⟨x0, c⟩, _⟩ := k1 d hd
    exact ⟨c.wpos, c.hpos, c.right, c.bottom⟩)
  obtain ⟨qs, hq, _⟩ := pictures_exist hb.wf bs (by
    intro d hd
    obtain ⟨⟨x0, c⟩, _⟩ := k2 d hd
    exact ⟨c.wpos, c.hpos, c.right, c.bottom⟩)
  have hs := h.cut.size
  have hr := h.cut.rows
  have g1 := Nat.mul_le_mul_left c.bounds.w (show 2 ≤ c.bounds.h by omega)
  have g2 := Nat.mul_le_mul_right c.bounds.h (show 1 ≤ c.bounds.w by have := hc.w; omega)
  have hw := hc.w
  have w1 : c.bounds.w < W32 := by show _ < 2 ^ 32; omega
  have w2 : c.bounds.h < W32 := by show _ < 2 ^ 32; omega
  refine ⟨as, bs, ps, qs, e1, hp, e2, hq, m.segment h.cut.blank ha.wf hb.wf hc.wf ha.w hb.w hr hs e1 e2, ?_⟩
  have f := m.front.pictures ha.wf hc.wf w1 w2 (fun d hd => (k1 d hd).1) hp
  have e : as.map (movedBox 0 0) = as := by
    conv => rhs; rw [← List.map_id as]
    rfl
  rw [e] at f
  exact pictures_append f (m.back.pictures hb.wf hc.wf w1 w2 (fun d hd => (k2 d hd).1) hq)

/-- **C98**, `show_glyphs`: the line shows what its parts show. -/
theorem C98_show (lum : Nat) (ea eb ec : FileEnv) (a b c : Image) (h : CutFiles lum ea eb ec a b c) (es fs : List FileEnv) :
    showGlyphs lum (es ++ ec :: fs) = showGlyphs lum (es ++ ea :: eb :: fs) ∧
    showFile lum ec = ⟨(showFile lum ea).out ++ (showFile lum eb).out, .ok ()⟩ := by
  obtain ⟨as, bs, ps, qs, e1, hp, e2, hq, e3, hpq⟩ := cutFiles_pictures h
  obtain ⟨_, _, p3, p4⟩ := cutUp_parts h.cut
  have sa := (C73_line lum ea ps ⟨a, as, h.first, p3, e1, hp⟩).1
  have sb := (C73_line lum eb qs ⟨b, bs, h.second, p4, e2, hq⟩).1
  have sc := (C73_line lum ec (ps ++ qs) ⟨c, _, h.whole, h.cut.size, e3, hpq⟩).1
  have hg : gallery (ps ++ qs) = gallery ps ++ gallery qs := by simp [gallery]
  refine ⟨?_, by rw [sa, sb, sc, hg]⟩
  induction es with
  | nil =>
    simp only [List.nil_append, showGlyphs, sa, sb, sc, hg]
    cases (showGlyphs lum fs)
    simp only [List.append_assoc]
  | cons e es ih => simp only [List.cons_append, showGlyphs, ih]

theorem textWords_append {k : Nat} (hk : Blank k) {t r : List Nat} {ws vs : List (List Nat)} (h : TextWords t ws)
    (h' : TextWords r vs) : TextWords (t ++ k :: r) (ws ++ vs) := by
  induction h with
  | stop t ht =>
    cases h' with
    | stop _ hr =>
      refine .stop _ fun c hc => ?_
      rcases List.mem_append.1 hc with hc | hc
      · exact ht c hc
      · rcases List.mem_cons.1 hc with rfl | hc
        · exact hk
        · exact hr c hc
    | more _ w u vs hw hu =>
      refine .more _ w u vs ?_ hu
      obtain ⟨p, e, hp, rest⟩ := hw
      refine ⟨t ++ k :: p, by rw [e, List.append_assoc, List.cons_append], fun c hc => ?_, rest⟩
      rcases List.mem_append.1 hc with hc | hc
      · exact ht c hc
      · rcases List.mem_cons.1 hc with rfl | hc
        · exact hk
        · exact hp c hc
  | more t w u ws hw _ ih =>
    obtain ⟨p, e, hp, hne, hb, hu⟩ := hw
    refine .more _ w (u ++ k :: r) _ ⟨p, by rw [e]; simp only [List.append_assoc], hp, hne, hb, ?_⟩ ih
    intro c v hv
    cases u with
    | nil => cases hv; exact hk
    | cons d u => cases hv; exact hu _ _ rfl

/-- **C98**, `write_glyphs`: if the first part has as many letters as words, the line with both texts is learned as its
parts are; how it ends is told by the second part. -/
theorem C98_write (lum : Nat) (ea eb ec : FileEnv) (a b c : Image) (ta tb font : List Nat) (k : Nat) (hk : Blank k)
    (h : CutFiles lum ea eb ec a b c) (hok : (loadFile lum ⟨ea, some ta, font⟩).ended = .ok ()) (js ks : List Job) :
    writeGlyphs lum (js ++ ⟨ec, some (ta ++ k :: tb), font⟩ :: ks) =
      writeGlyphs lum (js ++ ⟨ea, some ta, font⟩ :: ⟨eb, some tb, font⟩ :: ks) := by
  obtain ⟨as, bs, ps, qs, e1, hp, e2, hq, e3, hpq⟩ := cutFiles_pictures h
  obtain ⟨_, _, p3, p4⟩ := cutUp_parts h.cut
  obtain ⟨wa, hwa⟩ := textWords_exists ta.length ta (Nat.le_refl _)
  obtain ⟨wb, hwb⟩ := textWords_exists tb.length tb (Nat.le_refl _)
  have La : (Lesson.mk ⟨ea, some ta, font⟩ a as ps wa).Holds lum := ⟨⟨ta, rfl, hwa⟩, h.first, p3, e1, hp⟩
  have Lb : (Lesson.mk ⟨eb, some tb, font⟩ b bs qs wb).Holds lum := ⟨⟨tb, rfl, hwb⟩, h.second, p4, e2, hq⟩
  have Lc : (Lesson.mk ⟨ec, some (ta ++ k :: tb), font⟩ c (as ++ bs.map (movedBox a.bounds.w 0)) (ps ++ qs) (wa ++ wb)).Holds
      lum := ⟨⟨_, rfl, textWords_append hk hwa hwb⟩, h.whole, h.cut.size, e3, hpq⟩
  obtain ⟨ra, ga, la⟩ := C65_line lum _ La
  obtain ⟨rb, gb, lb⟩ := C65_line lum _ Lb
  obtain ⟨rc, gc, lc⟩ := C65_line lum _ Lc
  dsimp only at la lb lc
  have hn : wa.length = as.length := by
    by_cases hn : wa.length = as.length
    · exact hn
    · rw [la, if_neg hn] at hok
      cases hok
  have hpl : ps.length = as.length := (line_pics La).2.1
  have hg : rc = ra ++ rb := by
    have e : lineGlyphs font (ps ++ qs) (wa ++ wb) = lineGlyphs font ps wa ++ lineGlyphs font qs wb := by
      unfold lineGlyphs
      exact List.zipWith_append (by omega)
    have g := glyphsWrite_append ga gb
    change glyphsWrite (lineGlyphs font (ps ++ qs) (wa ++ wb)) = .ok rc at gc
    change glyphsWrite (lineGlyphs font ps wa ++ lineGlyphs font qs wb) = _ at g
    rw [e, g] at gc
    cases gc
    rfl
  have hcnt : (wa ++ wb).length = (as ++ bs.map (movedBox a.bounds.w 0)).length ↔ wb.length = bs.length := by
    simp only [List.length_append, List.length_map]
    omega
  rw [if_pos hn] at la
  induction js with
  | nil =>
    simp only [List.nil_append, writeGlyphs, la, lb, lc, hg]
    by_cases hw : wb.length = bs.length
    · rw [if_pos hw, if_pos (hcnt.2 hw)]
      cases (writeGlyphs lum ks)
      simp only [List.append_assoc]
    · rw [if_neg hw, if_neg fun e => hw (hcnt.1 e)]
  | cons j js ih => simp only [List.cons_append, writeGlyphs, ih]

/-- **C98**: whatever is read afterwards, it does not matter whether the line was learned whole or in parts. -/
theorem C98_read {P : Type} [Dbl P] (S : StdSort) (lum : Nat) (ea eb ec : FileEnv) (a b c : Image) (ta tb font : List Nat)
    (k : Nat) (hk : Blank k) (h : CutFiles lum ea eb ec a b c) (hok : (loadFile lum ⟨ea, some ta, font⟩).ended = .ok ())
    (js ks : List Job) (image : FileEnv) (infos dict : Option TextFile) :
    learnAndRead P S lum (js ++ ⟨ec, some (ta ++ k :: tb), font⟩ :: ks) image infos dict =
      learnAndRead P S lum (js ++ ⟨ea, some ta, font⟩ :: ⟨eb, some tb, font⟩ :: ks) image infos dict := by
  unfold learnAndRead
  rw [C98_write lum ea eb ec a b c ta tb font k hk h hok js ks]

/-! ### Examples, and why the cut needs a blank column -/

/-- The second picture to the right of the first. -/
def besides (a b : Image) : Image :=
  ⟨⟨a.bounds.w + b.bounds.w, a.bounds.h⟩, (List.range a.bounds.h).flatMap fun y =>
    (a.data.drop (y * a.bounds.w)).take a.bounds.w ++ (b.data.drop (y * b.bounds.w)).take b.bounds.w⟩

theorem part_of {l : Nat} {i i' : Image} (h1 : l + i.bounds.w ≤ i'.bounds.w) (h2 : i'.bounds.h = i.bounds.h)
    (h3 : ∀ x < i.bounds.w, ∀ y < i.bounds.h, pix i' (x + l) y = pix i x y) : Part l i i' :=
  ⟨h1, h2, fun x y hx hy => h3 x hx y hy⟩

theorem blank_of {i : Image} {x : Nat} (h : ∀ y < i.bounds.h, letter i x y = false) : BlankCol i x := by
  intro y
  by_cases hy : y < i.bounds.h
  · exact h y hy
  · exact letter_out (by omega)

/-- `a! a` and `!a!`, one behind the other. -/
theorem cut_gap : CutUp blockGap barGap (besides blockGap barGap) :=
  ⟨⟨part_of (by decide) (by decide) (by decide +kernel), part_of (by decide) (by decide) (by decide +kernel), by decide⟩,
    blank_of (by decide +kernel), by decide, by decide⟩

example : segment (besides blockGap barGap) =
    .ok [⟨0, 0, 2, 2⟩, ⟨3, 0, 1, 2⟩, ⟨9, 0, 2, 2⟩, ⟨12, 0, 1, 2⟩, ⟨18, 0, 2, 2⟩, ⟨21, 0, 1, 2⟩] := by decide +kernel

/-- The line with the text `a ! a ! a !` is learned as its parts are. -/
example : writeGlyphs 128 [⟨ppm (besides blockGap barGap), some (bytes " a ! \na\n ! a !"), bytes "font"⟩] =
    writeGlyphs 128 [lesson.job, ⟨ppm barGap, some (bytes " ! a !"), bytes "font"⟩] ∧
    (writeGlyphs 128 [lesson.job, ⟨ppm barGap, some (bytes " ! a !"), bytes "font"⟩]).ended = .ok () := by
  refine ⟨?_, by decide +kernel⟩
  have e : bytes " a ! \na\n ! a !" = bytes " a ! \na" ++ 10 :: bytes " ! a !" := by decide +kernel
  have := C98_write 128 (ppm blockGap) (ppm barGap) (ppm (besides blockGap barGap)) _ _ _ (bytes " a ! \na") (bytes " ! a !")
    (bytes "font") 10 (.inr (by decide)) ⟨by decide +kernel, by decide +kernel, by decide +kernel, cut_gap⟩ (by decide +kernel)
    [] []
  rw [e]
  simp only [List.nil_append] at this
  rw [this]
  decide +kernel

example : (showFile 128 (ppm (besides blockGap barGap))).out =
    (showFile 128 (ppm blockGap)).out ++ (showFile 128 (ppm barGap)).out := by decide +kernel

/-- With a word of the first part in the text of the second, the line is learned and the first part is not. -/
example : (writeGlyphs 128 [⟨ppm (besides blockGap barGap), some (bytes "a ! a ! a !"), bytes "font"⟩]).ended = .ok () ∧
    (writeGlyphs 128 [⟨ppm blockGap, some (bytes "a !"), bytes "font"⟩, ⟨ppm barGap, some (bytes "a ! a !"), bytes "font"⟩]).ended =
      .throw := by
  constructor <;> decide +kernel

/-- Cut right behind a letter, its last column is lost: the block is learned as a bar. -/
theorem C98_no_blank : let rest : Image := ⟨⟨3, 2⟩, [45, 120, 45, 45, 120, 45]⟩
    Beside block rest (besides block rest) ∧ ¬ Joined (besides block rest) 1 ∧
    segment (besides block rest) = .ok [⟨0, 0, 2, 2⟩, ⟨3, 0, 1, 2⟩] ∧ segment block = .ok [⟨0, 0, 1, 2⟩] := by
  refine ⟨⟨part_of (by decide) (by decide) (by decide +kernel), part_of (by decide) (by decide) (by decide +kernel), by decide⟩,
    ?_, by decide +kernel, by decide +kernel⟩
  rintro ⟨y, y', _, h, _⟩
  have : BlankCol (besides block ⟨⟨3, 2⟩, [45, 120, 45, 45, 120, 45]⟩) 2 := blank_of (by decide +kernel)
  rw [this y'] at h
  cases h

end Ppocr.Props

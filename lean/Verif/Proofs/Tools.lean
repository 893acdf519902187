import Verif.Model.Tools
import Verif.Spec.Tools
import Verif.Proofs.WordLines
import Verif.Proofs.ExtractText
import Verif.Proofs.GlyphsLoad
import Verif.Proofs.Program
import Verif.Props.ImageFile

/-! # Helper lemmas: the learning tools -/

namespace Ppocr
open Spec Props

/-! ### Words of a text -/

theorem word_ne {t w r : List Nat} (h : Word t w r) : ∃ c ∈ t, ¬ Blank c := by
  obtain ⟨p, rfl, _, hw, hnb, _⟩ := h
  cases w with
  | nil => exact absurd rfl hw
  | cons c w => exact ⟨c, by simp, hnb c (by simp)⟩

theorem textWords_exists (n : Nat) : ∀ t : List Nat, t.length ≤ n → ∃ ws, TextWords t ws := by
  induction n with
  | zero =>
    intro t h
    have : t = [] := List.length_eq_zero_iff.1 (by omega)
    subst this
    exact ⟨[], .stop _ (by simp)⟩
  | succ n ih =>
    intro t h
    have hl : Live (IS.of t) := ⟨rfl, rfl, by simp [IS.of]⟩
    by_cases hf : ((IS.of t).str []).2.fail = false
    · have hw := (str_iff hl [] _ _).2 ⟨hf, rfl, rfl⟩
      have hlt : ((IS.of t).str []).2.rest.length < t.length := by
        obtain ⟨p, e, _, hne, _⟩ := hw
        have := List.length_pos_iff.2 hne
        have e' := congrArg List.length e
        simp only [List.length_append] at e'
        have : (IS.of t).rest.length = t.length := rfl
        omega
      obtain ⟨ws, h1⟩ := ih _ (show ((IS.of t).str []).2.rest.length ≤ n by omega)
      exact ⟨_, .more _ _ _ _ hw h1⟩
    · refine ⟨[], .stop _ ?_⟩
      apply Classical.byContradiction
      intro hb
      apply hf
      have hd : t.dropWhile isSpace ≠ [] := by
        intro e
        apply hb
        intro c hc
        rw [← isBlank_iff]
        have : t = t.takeWhile isSpace := by
          have := List.takeWhile_append_dropWhile (p := isSpace) (l := t)
          rw [e, List.append_nil] at this
          exact this.symm
        rw [this] at hc
        exact takeWhile_all _ c hc
      rcases sentry_live hl with ⟨h1, _⟩ | ⟨_, _, h2⟩
      · exact absurd h1 hd
      · unfold IS.str
        rw [h2]
        simp only []
        have hrest : (IS.of t).rest = t := rfl
        rw [hrest]
        cases hc : t.dropWhile isSpace with
        | nil => exact absurd hc hd
        | cons c u =>
          have := dropWhile_head _ c u hc
          simp [this]

/-- The next word. -/
theorem str_words {s : IS} (h : Live s) {ws : List (List Nat)} (hw : TextWords s.rest ws) :
    match ws with
    | [] => (s.str []).2.fail = true
    | w :: ws => (s.str []).2.fail = false ∧ (s.str []).1 = w ∧ Live (s.str []).2 ∧ TextWords (s.str []).2.rest ws := by
  cases hw with
  | stop _ hb =>
    apply Classical.byContradiction
    intro hf
    have hf : (s.str []).2.fail = false := by simpa using hf
    obtain ⟨c, hc, hn⟩ := word_ne ((str_iff h [] _ _).2 ⟨hf, rfl, rfl⟩)
    exact hn (hb c hc)
  | more _ w r ws hw hr =>
    obtain ⟨h1, h2, h3⟩ := (str_iff h [] w r).1 hw
    exact ⟨h1, h2, str_live h [] h1, by rw [h3]; exact hr⟩

/-! ### `write_glyphs` -/

theorem glyphsWrite_cons {g : LGlyph} {gs : List LGlyph} {t r : List Nat} (h1 : glyphWrite g = .ok t)
    (h2 : glyphsWrite gs = .ok r) : glyphsWrite (g :: gs) = .ok (t ++ r) := by
  rw [glyphsWrite, h1, Res.ok_bind, h2]
  rfl

theorem glyphWrite_wf {g : LGlyph} (h : g.img.WF) : ∃ t, glyphWrite g = .ok t := by
  unfold glyphWrite
  rw [imgWrite_ok h]
  exact ⟨_, rfl⟩

theorem glyphsOfLoop_ok {i : Image} (font : List Nat) (fuel : Nat) : ∀ (x : Nat) (s : IS) (bs : List Box)
    (as : List Image) (ws : List (List Nat)) (out : List Nat), segmentFrom i fuel x = .ok bs → Pictures i bs as →
    (∀ a ∈ as, a.WF) → Live s → TextWords s.rest ws →
    ∃ t, glyphsWrite (lineGlyphs font as ws) = .ok t ∧
      glyphsOfLoop i font fuel x s out = ⟨out ++ t, if bs.length = ws.length then .ok () else .throw⟩ := by
  induction fuel with
  | zero => intro x s bs as ws out h; simp [segmentFrom] at h
  | succ fuel ih =>
    intro x s bs as ws out h hp hwf hl hw
    unfold segmentFrom at h
    obtain ⟨b, hb, h⟩ := Res.bind_eq_ok.1 h
    have hstr := str_words hl hw
    unfold glyphsOfLoop glyphStep
    rw [hb, Res.ok_bind]
    by_cases ht : b.truthy = true
    · rw [if_pos ht] at h ⊢
      obtain ⟨bs', hbs, h⟩ := Res.bind_eq_ok.1 h
      simp only [Res.pure_eq, Res.ok.injEq] at h
      subst h
      cases as with
      | nil => exact absurd hp (by simp [Pictures])
      | cons a as =>
        rw [hp.1, Res.ok_bind]
        cases ws with
        | nil =>
          simp only at hstr
          exact ⟨[], rfl, by simp [hstr, Res.void]⟩
        | cons w ws =>
          obtain ⟨h1, h2, h3, h4⟩ := hstr
          obtain ⟨t, ht⟩ := glyphWrite_wf (g := ⟨a, [⟨w, font, maxU⟩]⟩) (hwf a (by simp))
          obtain ⟨r, hr, e⟩ := ih (uadd b.x b.w) (s.str []).2 bs' as ws (out ++ t) hbs hp.2
            (fun c hc => hwf c (by simp [hc])) h3 h4
          refine ⟨t ++ r, glyphsWrite_cons ht hr, ?_⟩
          simp only [h1, Bool.false_eq_true, if_false, h2, ht, Res.ok_bind, Res.pure_eq]
          rw [e]
          simp
    · rw [if_neg ht] at h ⊢
      simp only [Res.pure_eq, Res.ok.injEq] at h
      subst h
      cases as with
      | cons a as => exact absurd hp (by simp [Pictures])
      | nil =>
        refine ⟨[], by simp [lineGlyphs, glyphsWrite], ?_⟩
        cases ws with
        | nil =>
          simp only at hstr
          simp [hstr]
        | cons w ws =>
          simp [hstr.1, Res.void]

/-! ### Loaded images -/

/-- A buffer being filled with the two values of a pixel. -/
def Filling (n : Nat) (o : Out Pixel) : Prop :=
  o.cap = n ∧ o.done.length ≤ n ∧ ∀ p ∈ o.done, p = chDash ∨ p = chX

theorem Filling.push {n : Nat} {o o' : Out Pixel} {p : Pixel} (h : Filling n o) (hp : p = chDash ∨ p = chX)
    (e : o.push p = .ok o') : Filling n o' := by
  unfold Out.push at e
  split at e
  · cases e
    refine ⟨h.1, ?_, ?_⟩
    · have := h.1
      simp only [List.length_append, List.length_singleton]
      omega
    · intro q hq
      rcases List.mem_append.1 hq with hq | hq
      · exact h.2.2 q hq
      · rw [List.mem_singleton] at hq
        rw [hq]; exact hp
  · cases e

theorem ite_pixel (c : Prop) [Decidable c] : (if c then chDash else chX) = chDash ∨ (if c then chDash else chX) = chX := by
  split
  · exact .inl rfl
  · exact .inr rfl

theorem decodeP6_filling {n lum : Nat} : ∀ (l : List UInt8) (o o' : Out Pixel), Filling n o → decodeP6 lum l o = .ok o' →
    Filling n o' := by
  intro l o
  fun_induction decodeP6 lum l o with
  | case1 o => intro o' h e; cases e; exact h
  | case2 o r g b t ih =>
    intro o' h e
    obtain ⟨o1, e1, e⟩ := Res.bind_eq_ok.1 e
    exact ih o1 o' (h.push (ite_pixel _) e1) e
  | case3 => intro o' h e; cases e

theorem decodeP4Row_filling {n : Nat} : ∀ (k i c : Nat) (p : List UInt8) (o : Out Pixel) (r : List UInt8 × Out Pixel),
    Filling n o → decodeP4Row k i c p o = .ok r → Filling n r.2
  | 0, _, _, _, _, _, h, e => by cases e; exact h
  | k + 1, i, c, p, o, r, h, e => by
    unfold decodeP4Row at e
    obtain ⟨q, _, e⟩ := Res.bind_eq_ok.1 e
    obtain ⟨o1, e1, e⟩ := Res.bind_eq_ok.1 e
    split at e
    · cases e
    · exact decodeP4Row_filling k _ _ _ o1 r (h.push (ite_pixel _) e1) e

theorem decodeP4_filling {n w : Nat} : ∀ (k : Nat) (p : List UInt8) (o o' : Out Pixel), Filling n o →
    decodeP4 w k p o = .ok o' → Filling n o'
  | 0, _, _, _, h, e => by cases e; exact h
  | k + 1, p, o, o', h, e => by
    unfold decodeP4 at e
    obtain ⟨q, e1, e⟩ := Res.bind_eq_ok.1 e
    exact decodeP4_filling k _ _ o' (decodeP4Row_filling _ _ _ _ _ q h e1) e

theorem decodeAscii_filling {n sz : Nat} : ∀ (l : List UInt8) (k : Nat) (o : Out Pixel) (r : List UInt8 × Out Pixel),
    Filling n o → decodeAscii sz l k o = .ok r → Filling n r.2
  | [], _, _, _, h, e => by cases e; exact h
  | c :: t, k, o, r, h, e => by
    unfold decodeAscii at e
    split at e
    · exact decodeAscii_filling t k o r h e
    · split at e
      · obtain ⟨o1, e1, e⟩ := Res.bind_eq_ok.1 e
        have h1 := h.push (.inl rfl) e1
        split at e
        · cases e; exact h1
        · exact decodeAscii_filling t _ o1 r h1 e
      · split at e
        · obtain ⟨o1, e1, e⟩ := Res.bind_eq_ok.1 e
          have h1 := h.push (.inr rfl) e1
          split at e
          · cases e; exact h1
          · exact decodeAscii_filling t _ o1 r h1 e
        · split at e
          · exact decodeAscii_filling t k o r h e
          · cases e

/-- A loaded image. -/
structure Picture (i : Image) : Prop where
  wf : i.WF
  w : 0 < i.bounds.w
  h : 0 < i.bounds.h
  pixels : ∀ p ∈ i.data, p = chDash ∨ p = chX

theorem mapM_inv : ∀ (c : List (Option Pixel)) (l : List Pixel), c.mapM id = some l → c = l.map some
  | [], l, h => by
    simp only [List.mapM_nil, Option.pure_def, Option.some.injEq] at h
    subst h; rfl
  | p :: c, l, h => by
    cases p with
    | none => simp at h
    | some p =>
      cases hc : c.mapM id with
      | none => simp [hc] at h
      | some m =>
        simp [hc] at h
        subst h
        rw [mapM_inv c m hc]; rfl

theorem filling_image {w h : Nat} {o : Out Pixel} {i : Image} (ho : Filling (w * h) o)
    (e : RawImage.image ⟨⟨w, h⟩, o.cells⟩ = .ok i) (hw : w < W32) (hh : h < W32) (h0 : w * h ≠ 0) (hs : w * h < W32) :
    Picture i := by
  unfold RawImage.image RawImage.toImage at e
  cases hm : o.cells.mapM id with
  | none => rw [hm] at e; cases e
  | some l =>
    rw [hm] at e
    simp only [Option.map_some, Res.ok.injEq] at e
    subst e
    have hl := mapM_inv _ l hm
    have hlen : l.length = w * h := by
      have := congrArg List.length hl
      have h1 := ho.1
      have h2 := ho.2.1
      simp [Out.cells] at this
      omega
    refine ⟨⟨hlen, hs, hw, hh⟩, Nat.pos_of_ne_zero fun e => h0 (by simp_all), Nat.pos_of_ne_zero fun e => h0 (by simp_all), ?_⟩
    intro p hp
    apply ho.2.2
    have : some p ∈ o.cells := by rw [hl]; exact List.mem_map_of_mem hp
    unfold Out.cells at this
    rcases List.mem_append.1 this with h | h
    · obtain ⟨q, hq, e⟩ := List.mem_map.1 h
      cases e
      exact hq
    · rw [List.mem_replicate] at h
      cases h.2

theorem loadImage_picture {e : FileEnv} {lum : Nat} {i : Image} (h : loadImage e lum = .ok i) : Picture i := by
  unfold loadImage imageFromFile at h
  obtain ⟨r, h1, h⟩ := Res.bind_eq_ok.1 h
  obtain ⟨cells, _, h1⟩ := Res.bind_eq_ok.1 h1
  obtain ⟨buf, _, h1⟩ := Res.bind_eq_ok.1 h1
  unfold imageFromBytes at h1
  cases hp : parseHeader buf with
  | none => rw [hp] at h1; cases h1
  | some hd =>
    rw [hp] at h1
    obtain ⟨_, _, _, hw, hh, _⟩ := (parseHeader_iff buf hd.type hd.width hd.height hd.rest).1 ⟨_, hp⟩
    simp only at h1
    have h0 : Filling (hd.width * hd.height) { cap := hd.width * hd.height, done := [] } := ⟨rfl, by simp, by simp⟩
    split at h1
    · cases h1
    · rename_i hn
      split at h1
      · cases h1
      · rename_i hs
        have hs : hd.width * hd.height < W32 := by omega
        split at h1
        · split at h1
          · cases h1
          · obtain ⟨o, e1, h1⟩ := Res.bind_eq_ok.1 h1
            cases h1
            exact filling_image (decodeP6_filling _ _ _ h0 e1) h hw hh hn hs
        · split at h1
          · split at h1
            · cases h1
            · obtain ⟨o, e1, h1⟩ := Res.bind_eq_ok.1 h1
              cases h1
              exact filling_image (decodeP4_filling _ _ _ _ h0 e1) h hw hh hn hs
          · split at h1
            · obtain ⟨o, e1, h1⟩ := Res.bind_eq_ok.1 h1
              split at h1
              · cases h1
              · cases h1
                exact filling_image (decodeAscii_filling _ _ _ _ h0 e1) h hw hh hn hs
            · cases h1

/-! ### Parts of an image -/

theorem copyTo_mem {α : Type} {src : List α} : ∀ (n i : Nat) (o o' : Out α), copyTo src i n o = .ok o' →
    ∀ p ∈ o'.done, p ∈ o.done ∨ p ∈ src
  | 0, _, _, _, e, p, hp => by cases e; exact .inl hp
  | n + 1, i, o, o', e, p, hp => by
    unfold copyTo at e
    obtain ⟨v, e1, e⟩ := Res.bind_eq_ok.1 e
    obtain ⟨o1, e2, e⟩ := Res.bind_eq_ok.1 e
    rcases copyTo_mem n (i + 1) o1 o' e p hp with h | h
    · unfold Out.push at e2
      split at e2
      · cases e2
        rcases List.mem_append.1 h with h | h
        · exact .inl h
        · rw [List.mem_singleton] at h
          exact .inr (h ▸ List.mem_of_getElem? (rd_eq_ok.1 e1))
      · cases e2
    · exact .inr h

theorem sectionRows_mem {src : List Pixel} {stride w : Nat} : ∀ (n d : Nat) (o o' : Out Pixel),
    sectionRows src stride w n d o = .ok o' → ∀ p ∈ o'.done, p ∈ o.done ∨ p ∈ src
  | 0, _, _, _, e, p, hp => by cases e; exact .inl hp
  | n + 1, d, o, o', e, p, hp => by
    unfold sectionRows at e
    obtain ⟨o1, e1, e⟩ := Res.bind_eq_ok.1 e
    rcases sectionRows_mem n (d + stride) o1 o' e p hp with h | h
    · exact copyTo_mem _ _ _ _ e1 p h
    · exact .inr h

theorem section_mem {i a : Image} {x y : Nat} {b : Bounds} (h : i.section x y b = .ok a) : ∀ p ∈ a.data, p ∈ i.data := by
  unfold Image.section at h
  obtain ⟨_, _, h⟩ := Res.bind_eq_ok.1 h
  obtain ⟨_, _, h⟩ := Res.bind_eq_ok.1 h
  obtain ⟨o, e, h⟩ := Res.bind_eq_ok.1 h
  unfold sectionInto at e
  obtain ⟨d, _, e⟩ := Res.bind_eq_ok.1 e
  intro p hp
  unfold Out.toImage at h
  split at h
  · cases h
    rcases sectionRows_mem _ _ _ _ e p hp with h | h
    · simp at h
    · exact h
  · cases h

/-! ### `write_datas` -/

theorem ignoreLines_write {g : List Nat} : ∀ (vs : List LView), (∀ v ∈ vs, v.Good) →
    ignoreLines vs.length ⟨vs.flatMap viewWrite ++ g, false, false, true⟩ = ⟨g, false, false, true⟩
  | [], _ => rfl
  | v :: vs, h => by
    obtain ⟨h1, h2, _⟩ := h v (by simp)
    have e : (v :: vs).flatMap viewWrite ++ g =
        (v.word ++ 32 :: (v.font ++ 32 :: showNat v.info)) ++ 10 :: (vs.flatMap viewWrite ++ g) := by
      simp [viewWrite]
    rw [List.length_cons, ignoreLines, e, ignore_line]
    · exact ignoreLines_write vs fun u hu => h u (by simp [hu])
    · have := token_no_nl h1
      have := token_no_nl h2
      have := showNat_no_nl v.info
      simp [*]

theorem datasLoop_stop {l : List Nat} {se : IS} (hl : ∀ (fuel : Nat) (d : Datas),
    datasLoop (fuel + 1) ⟨l, false, false, true⟩ d = .ok (d, se)) : ∀ (gs : List LGlyph) (t : List Nat) (fuel : Nat)
    (d d' : Datas), (∀ g ∈ gs, g.Good) → glyphsWrite gs = .ok t → gs.length < fuel →
    d.loadAll (gs.map LGlyph.img) = .ok d' → datasLoop fuel ⟨t ++ l, false, false, true⟩ d = .ok (d', se)
  | _, _, 0, _, _, _, _, h, _ => by omega
  | [], t, fuel + 1, d, d', _, ht, _, hd => by
    cases ht
    cases hd
    exact hl fuel d
  | g :: gs, t, fuel + 1, d, d', h, ht, hf, hd => by
    have hg := h g (by simp)
    unfold glyphsWrite at ht
    obtain ⟨t1, h1, ht⟩ := Res.bind_eq_ok.1 ht
    obtain ⟨t2, h2, ht⟩ := Res.bind_eq_ok.1 ht
    simp only [Res.pure_eq, Res.ok.injEq] at ht
    rw [glyphWrite_ok hg] at h1
    injection h1 with h1
    have e : t ++ l = [] ++ (boundsWrite g.img.bounds ++ 32 :: (g.img.data.map UInt8.toNat ++
        ([10] ++ (showNat g.views.length ++ 10 :: (g.views.flatMap viewWrite ++ (t2 ++ l)))))) := by
      rw [← ht, ← h1]
      simp [viewsWrite]
    rw [List.map_cons, Datas.loadAll] at hd
    obtain ⟨d1, hd1, hd⟩ := Res.bind_eq_ok.1 hd
    rw [datasLoop, e, imgRead_write hg.img [] _ (by simp)]
    simp only []
    rw [uint_show hg.count (by decide) (by simp) (dec_10 _)]
    simp only [List.isEmpty_cons, Bool.false_eq_true, if_false]
    rw [hd1, Res.ok_bind, show ∀ l : List Nat, 10 :: l = [] ++ 10 :: l from fun _ => rfl, ignore_line (by simp),
      ignoreLines_write g.views hg.views]
    exact datasLoop_stop hl gs t2 fuel d1 d' (fun u hu => h u (by simp [hu])) h2 (by simpa using hf) hd

theorem datasLoop_write (gs : List LGlyph) (t : List Nat) (fuel : Nat) (d d' : Datas) (h : ∀ g ∈ gs, g.Good)
    (ht : glyphsWrite gs = .ok t) (hf : gs.length < fuel) (hd : d.loadAll (gs.map LGlyph.img) = .ok d') :
    datasLoop fuel ⟨t, false, false, true⟩ d = .ok (d', ⟨[], true, true, true⟩) := by
  have := datasLoop_stop (l := []) (se := ⟨[], true, true, true⟩) (fun _ _ => rfl) gs t fuel d d' h ht hf hd
  rwa [List.append_nil] at this

end Ppocr

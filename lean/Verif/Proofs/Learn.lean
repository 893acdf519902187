import Verif.Proofs.Tools
import Verif.Props.WordLines
import Verif.Props.DictIO

/-! # Helper lemmas: learning, then reading -/

namespace Ppocr
open Spec Props

theorem encAll_inj {a b : List Nat} (ha : ∀ c ∈ a, Scalar c) (hb : ∀ c ∈ b, Scalar c) (h : encAll a = encAll b) : a = b := by
  have h1 := unicode_codes a [] ha
  rw [h, unicode_codes b [] hb] at h1
  injection h1 with h1
  injection h1 with h1 _
  exact h1.symm

/-! ### The words of a glyph file -/

theorem wordIndexLoop_congr {g g' : RGlyphs} (h1 : g.buf = g'.buf) (h2 : g.bufSz = g'.bufSz) (s : List Nat) :
    ∀ (fuel i : Nat), wordIndexLoop g s fuel i = wordIndexLoop g' s fuel i
  | 0, _ => rfl
  | fuel + 1, i => by
    unfold wordIndexLoop
    rw [h1, h2]
    simp only [wordIndexLoop_congr h1 h2 s fuel]

theorem wordIndexOf_congr {g g' : RGlyphs} (h1 : g.buf = g'.buf) (h2 : g.bufSz = g'.bufSz) (s : List Nat) :
    wordIndexOf g s = wordIndexOf g' s := by
  unfold wordIndexOf
  rw [h2, wordIndexLoop_congr h1 h2]

theorem finishGlyphs_congr {gs hs : List (List View)} {wm : StrMap} {g g' : RGlyphs} (h : finishGlyphs gs wm = .ok g)
    (h' : finishGlyphs hs wm = .ok g') : g.buf = g'.buf ∧ g.bufSz = g'.bufSz := by
  unfold finishGlyphs at h h'
  obtain ⟨r, e1, h⟩ := Res.bind_eq_ok.1 h
  obtain ⟨v, _, h⟩ := Res.bind_eq_ok.1 h
  obtain ⟨b, e2, h⟩ := Res.bind_eq_ok.1 h
  rw [e1, Res.ok_bind] at h'
  obtain ⟨v', _, h'⟩ := Res.bind_eq_ok.1 h'
  rw [e2, Res.ok_bind] at h'
  cases h
  cases h'
  exact ⟨rfl, rfl⟩

/-- What the recogniser keeps of a glyph file whose words all have a size that is not a multiple of 4. -/
structure WordTable (gs : List LGlyph) (G : RGlyphs) (wm : StrMap) (fid : List Nat → Nat) : Prop where
  ok : WordsOk wm
  keys : ∀ w, w ∈ wm.map Prod.fst ↔ w ∈ (allViews gs).map LView.word
  views : G.views = gs.map fun g => g.views.map fun v => ⟨place (wm.map Prod.fst) v.word, fid v.font⟩
  words : ∀ w ∈ wm.map Prod.fst, Holds G.buf (place (wm.map Prod.fst) w) w ∧ Terminated G.buf (place (wm.map Prod.fst) w) w
  find : ∀ s, (∀ c ∈ s, c ≠ 0) → (s ∈ wm.map Prod.fst ∨
    ∀ w, (wm.map Prod.fst).getLast? = some w → s.length ≤ 4 * ((w.length + 3) / 4)) → ∃ i, wordIndexOf G s = .ok i

/-- The glyphs of a file, and something behind them that stops the loop. -/
theorem rglyphsRead_stop {l : List Nat} {se : IS} (hl : ∀ (fuel : Nat) (wm fm : StrMap) (acc : List (List View)),
    rglyphsLoop (fuel + 1) ⟨l, false, false, true⟩ wm fm acc = .ok (acc, se, wm, fm)) (gs : List LGlyph) (h : ∀ g ∈ gs, g.Readable) (hs : SmallWords gs)
    (h4 : ∀ v ∈ allViews gs, v.word.length % 4 ≠ 0) :
    ∃ t G wm fid, glyphsWrite gs = .ok t ∧ rglyphsRead (IS.of (t ++ l)) [] = .ok (G, se) ∧
      WordTable gs G wm fid := by
  have hgood : ∀ g ∈ gs, g.Good := fun g hg => (h g hg).toGood
  obtain ⟨t, ht, hlen⟩ := glyphsWrite_total hgood
  obtain ⟨hr, hc, hw⟩ := smallWords_room hgood hs
  obtain ⟨wm, fm, e, m1, m2, _, _, k1, k2⟩ := rglyphsLoop_stop hl gs t ((t ++ l).length + 1) [] [] [] h ht
    (by rw [List.length_append]; omega)
    mapOk_nil mapOk_nil (by simpa using hc) (by simpa using hc)
  have hkeys : ∀ w, w ∈ wm.map Prod.fst ↔ w ∈ (allViews gs).map LView.word := by
    intro w
    rw [k1 w]
    simp
  have hroom : ((wm.map Prod.fst).map room).sum < W32 := by
    have := sum_room_le (a := wm.map Prod.fst) (b := (allViews gs).map LView.word) m1.sorted.nodup
      fun w hw => (hkeys w).1 hw
    omega
  have h4' : ∀ w ∈ wm.map Prod.fst, w.length % 4 ≠ 0 := by
    intro w hw
    obtain ⟨v, hv, e⟩ := List.mem_map.1 ((hkeys w).1 hw)
    rw [← e]
    exact h4 v hv
  have hlast : ∀ w, (wm.map Prod.fst).getLast? = some w → w.length % 4 ≠ 0 :=
    fun w hw => h4' w (List.mem_of_getLast? hw)
  have hok : WordsOk wm := ⟨m1, hroom, by
    intro w hw'
    obtain ⟨v, hv, e⟩ := List.mem_map.1 ((hkeys w).1 hw')
    rw [← e]
    exact hw v hv, hlast⟩
  obtain ⟨b, e2, hb⟩ := finishGlyphs_ok m1 hroom hlast
    (gs.map fun g => g.views.map fun v => (v.word, idOf fm v.font)) (by
      intro g hg v hv
      obtain ⟨g', hg', rfl⟩ := List.mem_map.1 hg
      obtain ⟨v', hv', rfl⟩ := List.mem_map.1 hv
      refine (hkeys _).2 (List.mem_map.2 ⟨v', ?_, rfl⟩)
      simp only [allViews, List.mem_flatMap]
      exact ⟨g', hg', hv'⟩)
  have a1 : ∀ f : List Nat → Nat, (gs.map fun g => g.views.map fun v => (v.word, idOf fm v.font)).map
      (List.map fun v : List Nat × Nat => (⟨f v.1, v.2⟩ : View)) =
      gs.map fun g => g.views.map fun v => ⟨f v.word, idOf fm v.font⟩ := by
    intro f
    simp [Function.comp_def]
  rw [a1 (idOf wm), a1 (place (wm.map Prod.fst))] at e2
  refine ⟨t, ⟨_, b, ((wm.map Prod.fst).map room).sum⟩, wm, idOf fm, ht, ?_, hok, hkeys, rfl, ?_, ?_⟩
  · unfold rglyphsRead
    unfold IS.of
    simp only []
    rw [e, Res.ok_bind]
    simp only [List.nil_append]
    rw [e2, Res.ok_bind, Res.pure_eq]
  · intro w hw
    exact ⟨(hb.holds hw).1, (hb.holds hw).2 (h4' w hw)⟩
  · intro s hs hlen
    obtain ⟨G, e3, e4⟩ := C49_search_partial wm hok s hs (fun w hw h0 => absurd h0 (h4' w hw)) hlen
    obtain ⟨c1, c2⟩ := finishGlyphs_congr e2 e3
    exact ⟨_, by rw [wordIndexOf_congr c1 c2, e4]⟩

theorem rglyphsRead_words (gs : List LGlyph) (h : ∀ g ∈ gs, g.Readable) (hs : SmallWords gs)
    (h4 : ∀ v ∈ allViews gs, v.word.length % 4 ≠ 0) :
    ∃ t G wm fid, glyphsWrite gs = .ok t ∧ rglyphsRead (IS.of t) [] = .ok (G, ⟨[], true, true, true⟩) ∧
      WordTable gs G wm fid := by
  obtain ⟨t, G, wm, fid, h1, h2, h3⟩ := rglyphsRead_stop (l := []) (se := ⟨[], true, true, true⟩) (by
    intro fuel wm fm acc
    rw [rglyphsLoop, ignore_end]
    simp [IS.uint, IS.sentry, IS.good]) gs h hs h4
  rw [List.append_nil] at h2
  exact ⟨t, G, wm, fid, h1, h2, h3⟩

/-! ### The file of the positions of the words -/

theorem entryFile_entries {t : List Nat} {es : List Entry} (h : EntryFile t es) : Entries t es := by
  induction h with
  | stop t hb =>
    refine .stop t ?_
    rintro ⟨e, r, r0, _, _, _, hw, _⟩
    obtain ⟨c, hc, hn⟩ := word_ne hw
    exact hn (hb c hc)
  | more t r e es h _ ih => exact .more t r e es h ih

theorem uint_eof {s : IS} (h : s.eof = true) (m old : Nat) : (s.uint m old).2.eof = true := by
  unfold IS.uint IS.sentry IS.good
  simp [h]

theorem blank_skip : ∀ (l : List Nat), (∀ c ∈ l, Blank c) → l.dropWhile isSpace = []
  | [], _ => rfl
  | c :: l, h => by
    rw [List.dropWhile_cons_of_pos (isBlank_iff.2 (h c (by simp)))]
    exact blank_skip l fun d hd => h d (by simp [hd])

theorem str_blank {s : IS} (h : Live s) (hb : ∀ c ∈ s.rest, Blank c) :
    (s.str []).2.eof = true ∧ (s.str []).2.fail = true := by
  have hd := blank_skip s.rest hb
  obtain ⟨r, e, f, w⟩ := s
  obtain ⟨h1, h2, _⟩ := h
  simp only at h1 h2 hd
  subst h1 h2
  cases e <;> simp [IS.str, IS.sentry, IS.good, hd]

theorem wwordsLoop_eof : ∀ (fuel : Nat) (s : IS) (acc : List WWordLines) (es : List Entry), Live s →
    s.rest.length < fuel → EntryFile s.rest es →
    ∃ s', wwordsLoop fuel s acc = .ok (acc ++ keep es, s') ∧ s'.eof = true := by
  intro fuel
  induction fuel with
  | zero => intro s acc es _ h; omega
  | succ fuel ih =>
    intro s acc es hl hf he
    obtain ⟨s', e, hs'⟩ := wwordsLoop_ok (fuel + 1) s acc es hl hf (entryFile_entries he)
    refine ⟨s', e, ?_⟩
    rw [wwordsLoop] at e
    generalize ht : s.rest = t at he
    cases he with
    | stop _ hb =>
      obtain ⟨h1, h2⟩ := str_blank hl (by rw [ht]; exact hb)
      have hff : (wlinesRead (s.str []).2 ⟨0, 0, 0, 0⟩).2.fail = true :=
        uint_fail (uint_fail (uint_fail (uint_fail h2 _ _) _ _) _ _) _ _
      simp only [hff, if_true, Res.ok.injEq, Prod.mk.injEq] at e
      rw [← e.2]
      exact uint_eof (uint_eof (uint_eof (uint_eof h1 _ _) _ _) _ _) _ _
    | more _ r en es' h1 h2 =>
      rw [← ht] at h1
      have hlen := hasEntry_shorter h1
      obtain ⟨f, _, _, _, _, _, er⟩ := (entry_iff hl en r).1 h1
      simp only [f, Bool.false_eq_true, if_false] at e
      rw [← er] at h2
      obtain ⟨s'', e'', h''⟩ := ih _ (if (s.str []).1.length ≤ 8 then
        acc ++ [⟨(s.str []).1, (wlinesRead (s.str []).2 ⟨0, 0, 0, 0⟩).1⟩] else acc) es' (pass_live hl f)
        (by rw [er]; omega) h2
      rw [e'', Res.ok.injEq, Prod.mk.injEq] at e
      rw [← e.2]
      exact h''

end Ppocr

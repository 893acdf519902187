import Verif.Proofs.Grown
import Verif.Props.Dictionary

/-! # Words added to a dictionary (C118) -/

namespace Ppocr.Props
open Ppocr Spec

/-- The answers `r` and `r'` of `ocr2_extract_text` with the dictionary `ws` and the larger `ws'`. `cand` holds of the words of the glyphs. -/
def Regrown (cand : List Nat → Prop) (ws ws' : List (List Nat)) (r r' : Res Answer) : Prop :=
  (r = .ub ∧ r' = .ub) ∨
  ∃ a a' ls t t', r = .ok a ∧ r' = .ok a' ∧ a.count = a'.count ∧ a.unrecognized = a'.unrecognized ∧ a.text = encAll t ∧
    a'.text = encAll t' ∧ ls.length = a.count ∧ (∀ l ∈ ls, ∀ w ∈ l, cand w) ∧ Grown isSep ws ws' ls t t'

/-- The answers `r` and `r'` of `ocr2_extract_text` with two dictionaries, and `q` with both together. -/
def Rejoined (cand : List Nat → Prop) (r r' q : Res Answer) : Prop :=
  (r = .ub ∧ r' = .ub ∧ q = .ub) ∨
  ∃ n un ls t t' u, r = .ok ⟨encAll t, un, n⟩ ∧ r' = .ok ⟨encAll t', un, n⟩ ∧ q = .ok ⟨encAll u, un, n⟩ ∧ ls.length = n ∧
    (∀ l ∈ ls, ∀ w ∈ l, cand w) ∧ BothTold isSep ls t t' u

/-- The same for `extract_text6` and `extract_text8`. -/
def Regrown6 (cand : List Nat → Prop) (ws ws' : List (List Nat)) (r r' : Res Answer6) : Prop :=
  (r = .ub ∧ r' = .ub) ∨
  ∃ a a' ls t t', r = .ok a ∧ r' = .ok a' ∧ a.res1 = a'.res1 ∧ a.res2 = a'.res2 ∧ a.res3 = encAll t ∧
    a'.res3 = encAll t' ∧ (∀ l ∈ ls, ∀ w ∈ l, cand w ∨ w = [95] ∨ w = [32]) ∧ Grown isStop ws ws' ls t t'

def Rejoined6 (cand : List Nat → Prop) (r r' q : Res Answer6) : Prop :=
  (r = .ub ∧ r' = .ub ∧ q = .ub) ∨
  ∃ r1 r2 ls t t' u, r = .ok ⟨r1, r2, encAll t⟩ ∧ r' = .ok ⟨r1, r2, encAll t'⟩ ∧ q = .ok ⟨r1, r2, encAll u⟩ ∧
    (∀ l ∈ ls, ∀ w ∈ l, cand w ∨ w = [95] ∨ w = [32]) ∧ BothTold isStop ls t t' u

/-- `w` is what words of glyphs spell one after the other; of the last one only the first character counts (C43). -/
def SpelledBy (cand : List Nat → Prop) (w : List Nat) : Prop := ∃ ch, ch ≠ [] ∧ (∀ u ∈ ch, cand u) ∧ spellCut ch = w

/-! ### Helper lemmas -/

theorem choices_from {cand : List Nat → Prop} : ∀ (run : List (List (List Nat))), (∀ l ∈ run, ∀ w ∈ l, cand w) → ∀ ch ∈ choices run, ∀ w ∈ ch, cand w
  | [], _, ch, hc => by
    have : ch = [] := by simpa [choices] using hc
    subst this
    simp
  | l :: run, h, ch, hc => by
    rw [choices] at hc
    obtain ⟨w, hw, hc⟩ := List.mem_flatMap.1 hc
    obtain ⟨ch', h', rfl⟩ := List.mem_map.1 hc
    intro v hv
    rcases List.mem_cons.1 hv with rfl | hv
    · exact h l (by simp) v hw
    · exact choices_from run (fun l hl => h l (by simp [hl])) ch' h' v hv

/-- If no added word can be spelled, nothing is added to the text. -/
theorem grown_unspelled {sep : List (List Nat) → Bool} {ws ws' : List (List Nat)} {ls : List (List (List Nat))} {t t' : List Nat}
    {cand : List Nat → Prop} (h : Grown sep ws ws' ls t t') (hc : ∀ l ∈ ls, ∀ w ∈ l, cand w) (hne : ∀ w ∈ ws', w ≠ [])
    (hw : ∀ w ∈ ws', SpelledBy cand w → w ∈ ws) : t = t' := by
  obtain ⟨ps, h1, rfl, rfl, h2⟩ := h
  rw [List.flatMap_def, List.flatMap_def]
  refine congrArg List.flatten (List.map_congr_left fun p hp => ?_)
  rcases h2 p hp with e | ⟨_, e | ⟨k1, k2, before, ch, after, k3, k4, _⟩⟩
  · exact e
  · exact e
  · refine absurd (hw _ k1 ⟨ch, ?_, ?_, k4⟩) k2
    · intro e
      rw [e] at k4
      exact hne _ k1 k4.symm
    · refine choices_from p.1 (fun l hl => hc l ?_) ch (by rw [k3]; simp)
      rw [← h1]
      exact List.mem_flatMap.2 ⟨p, hp, hl⟩

section
variable {P : Type} [ScoreDbl P]

/-- The program with any dictionary. -/
theorem program_looks (S : StdSort) (f : ProgFiles) (imgs : List Image) (d : Datas) (g : RGlyphs) (W : Nat → List Nat)
    (infos : List WordInfo) (ws : List (List Nat)) (E : List FNode) (i : Image)
    (hf : Files S imgs d g W infos ws E) (h1 : loadDatas f.datas = .ok d) (h2 : loadGlyphs f.glyphs = .ok g)
    (h3 : loadInfos S g f.infos = .ok infos) (himg : loadImage f.image 128 = .ok i) (hi : LineImage i) :
    (∀ dict E', loadDict dict = .ok E' → program P S { f with dict := dict } = .ub) ∨
    ∃ n un ls F, Looks isSep ls F ∧ ls.length = n ∧ (∀ l ∈ ls, ∀ w ∈ l, GlyphWord g W w) ∧ ∀ S' ws' dict E', loadDict dict = .ok E' →
      DictOf S' ws' E' → program P S { f with dict := dict } = .ok ⟨encAll (F ws'), un, n⟩ := by
  rcases readLine_dict (P := P) S imgs d g W infos ws E i hf hi with h | ⟨n, un, lead, segs, hn, hc, h⟩
  · exact .inl fun dict E' hE => by rw [program_loaded hf h1 h2 h3 hE himg]; exact h E'
  · exact .inr ⟨n, un, lead ++ segs.flatten, fun ws' => lead.flatMap firstOf ++ [32].intercalate (segs.map (segText ws')),
      (looks_same isSep lead _).append (intercalate_looks (fun s ws => segText ws s) (fun ls => segText_looks ls.length ls (Nat.le_refl _)) segs), hn, hc,
      fun S' ws' dict E' hE hd => by rw [program_loaded hf h1 h2 h3 hE himg]; exact h ws' E' (hd.searches _ _)⟩

/-! ### `ocr2_extract_text` -/

/-- **C118** for `ocr2_extract_text`: with words added to the dictionary, the text changes in words only, each of which becomes an added word
that candidates of its letters spell, before they spell any other word of the dictionary. -/
theorem C118_program (S S' : StdSort) (f : ProgFiles) (imgs : List Image) (d : Datas) (g : RGlyphs) (W : Nat → List Nat)
    (infos : List WordInfo) (ws ws' : List (List Nat)) (E E' : List FNode) (dict : Option TextFile) (i : Image)
    (hf : Files S imgs d g W infos ws E) (h1 : loadDatas f.datas = .ok d) (h2 : loadGlyphs f.glyphs = .ok g)
    (h3 : loadInfos S g f.infos = .ok infos) (hE : loadDict f.dict = .ok E) (hE' : loadDict dict = .ok E') (hd' : DictOf S' ws' E')
    (himg : loadImage f.image 128 = .ok i) (hi : LineImage i) (hw : ∀ w ∈ ws, w ∈ ws') :
    Regrown (GlyphWord g W) ws ws' (program P S f) (program P S { f with dict := dict }) := by
  rcases program_looks (P := P) S f imgs d g W infos ws E i hf h1 h2 h3 himg hi with h | ⟨n, un, ls, F, hL, hn, hc, h⟩
  · exact .inl ⟨h f.dict E hE, h dict E' hE'⟩
  · exact .inr ⟨_, _, ls, _, _, h S ws f.dict E hE hf.dict, h S' ws' dict E' hE' hd', rfl, rfl, rfl, rfl, hn, hc, hL.grown hw⟩

/-- **C118**: added words that the words of the glyphs cannot spell change nothing. -/
theorem C118_unspelled (S S' : StdSort) (f : ProgFiles) (imgs : List Image) (d : Datas) (g : RGlyphs) (W : Nat → List Nat)
    (infos : List WordInfo) (ws ws' : List (List Nat)) (E E' : List FNode) (dict : Option TextFile) (i : Image)
    (hf : Files S imgs d g W infos ws E) (h1 : loadDatas f.datas = .ok d) (h2 : loadGlyphs f.glyphs = .ok g)
    (h3 : loadInfos S g f.infos = .ok infos) (hE : loadDict f.dict = .ok E) (hE' : loadDict dict = .ok E') (hd' : DictOf S' ws' E')
    (himg : loadImage f.image 128 = .ok i) (hi : LineImage i) (hw : ∀ w ∈ ws, w ∈ ws')
    (hun : ∀ w ∈ ws', SpelledBy (GlyphWord g W) w → w ∈ ws) : program P S { f with dict := dict } = program P S f := by
  rcases C118_program (P := P) S S' f imgs d g W infos ws ws' E E' dict i hf h1 h2 h3 hE hE' hd' himg hi hw with
    ⟨e, e'⟩ | ⟨a, a', ls, t, t', e, e', c1, c2, c3, c4, _, hc, hG⟩
  · rw [e, e']
  · have ht := grown_unspelled hG hc hd'.ne hun
    rw [e, e']
    obtain ⟨x, y, z⟩ := a
    obtain ⟨x', y', z'⟩ := a'
    dsimp only at c1 c2 c3 c4
    rw [c1, c2, c3, c4, ht]

/-- **C118** for `ocr2_extract_text`: with two dictionaries together, each word of the line is printed as with one of them. -/
theorem C118_joined (S S' S'' : StdSort) (f : ProgFiles) (imgs : List Image) (d : Datas) (g : RGlyphs) (W : Nat → List Nat)
    (infos : List WordInfo) (ws ws' us : List (List Nat)) (E E' E'' : List FNode) (dict both : Option TextFile) (i : Image)
    (hf : Files S imgs d g W infos ws E) (h1 : loadDatas f.datas = .ok d) (h2 : loadGlyphs f.glyphs = .ok g)
    (h3 : loadInfos S g f.infos = .ok infos) (hE : loadDict f.dict = .ok E) (hE' : loadDict dict = .ok E') (hd' : DictOf S' ws' E')
    (hE'' : loadDict both = .ok E'') (hd'' : DictOf S'' us E'') (himg : loadImage f.image 128 = .ok i) (hi : LineImage i)
    (hu : ∀ w, w ∈ us ↔ w ∈ ws ∨ w ∈ ws') :
    Rejoined (GlyphWord g W) (program P S f) (program P S { f with dict := dict }) (program P S { f with dict := both }) := by
  rcases program_looks (P := P) S f imgs d g W infos ws E i hf h1 h2 h3 himg hi with h | ⟨n, un, ls, F, hL, hn, hc, h⟩
  · exact .inl ⟨h f.dict E hE, h dict E' hE', h both E'' hE''⟩
  · exact .inr ⟨n, un, ls, _, _, _, h S ws f.dict E hE hf.dict, h S' ws' dict E' hE' hd', h S'' us both E'' hE'' hd'', hn, hc, hL.both hu⟩

end

/-! ### `extract_text6` and `extract_text8` -/

theorem program6_looks (S : StdSort) (f : ProgFiles) (gs : List LGlyph) (d : Datas) (tg : List Nat) (i : Image) (hg : ∀ g ∈ gs, g.Good)
    (hv : ∀ g ∈ gs, g.views ≠ []) (hs : ∀ g ∈ gs, Sized g.img) (hw : ∀ g ∈ gs, ∀ w ∈ glyphWords g, Spelled w) (hlt : gs.length + 63 < W32)
    (hd : Datas.empty.loadAll (gs.map LGlyph.img) = .ok d) (ht : glyphsWrite gs = .ok tg) (hfg : f.glyphs = some tg)
    (hfd : f.datas = some (datasWrite d)) (himg : loadImage f.image 128 = .ok i) (hi : LineImage i) :
    (∀ dict E, loadDict dict = .ok E → program6 S { f with dict := dict } = .ub) ∨
    ∃ r1 r2 ls F, Looks isStop ls F ∧ (∀ l ∈ ls, ∀ w ∈ l, LGlyphWord gs w ∨ w = [95] ∨ w = [32]) ∧ ∀ S' ws dict E, loadDict dict = .ok E →
      DictOf S' ws E → program6 S { f with dict := dict } = .ok ⟨r1, r2, encAll (F ws)⟩ := by
  obtain ⟨t, hprog, hlet⟩ := program6_letters S f gs d tg hg hv hs hlt hd ht hfg hfd
  have hp : ∀ dict E, loadDict dict = .ok E → program6 S { f with dict := dict } = _ := fun dict E hE => hprog f.image dict i E himg hE
  rcases extract6_dict (Rd := Reads6 (gs.map LGlyph.img) (gs.map glyphWords)) (Jm := Jam6 (gs.map LGlyph.img) (gs.map glyphWords))
    (Kn := fun _ => False) (cand := LGlyphWord gs)
    ⟨fun _ _ => reads_head, hlet, by
      intro p o hr w hwm
      obtain ⟨g, v, _, hgv, hwv⟩ := (hr.words w).1 hwm
      rw [List.getElem?_map] at hgv
      obtain ⟨gl, hgl, rfl⟩ := Option.map_eq_some_iff.1 hgv
      exact hw gl (List.mem_of_getElem? hgl) w hwv, fun _ _ hr hn => (hr.read hn).1, fun _ _ hr hn => (hr.unread hn).1, fun _ _ _ h => h.elim⟩
    (by
      intro p o hr w hwm
      obtain ⟨g, v, _, hgv, hwv⟩ := (hr.words w).1 hwm
      rw [List.getElem?_map] at hgv
      obtain ⟨gl, hgl, rfl⟩ := Option.map_eq_some_iff.1 hgv
      obtain ⟨cs, _, hcs, e⟩ := hw gl (List.mem_of_getElem? hgl) w hwv
      exact ⟨cs, e, hcs, gl, List.mem_of_getElem? hgl, by rw [← e]; exact hwv⟩) hi with h | ⟨r1, r2, cs, hc, h⟩
  · exact .inl fun dict E hE => by rw [hp dict E hE]; exact h E
  · exact .inr ⟨r1, r2, cs, fun ws => saying ws cs, saying_looks cs.length cs (Nat.le_refl _), hc,
      fun S' ws dict E hE hdict => by rw [hp dict E hE]; exact h ws E (hdict.searches _ _)⟩

theorem program8_looks (P : Type) [LawfulProb8 P] (S : StdSort) (mv : List Nat → List Nat) (f : ProgFiles) (gs : List LGlyph) (d : Datas)
    (tg : List Nat) (i : Image) (hg : ∀ g ∈ gs, g.Good)
    (hv : ∀ g ∈ gs, g.views ≠ []) (hs : ∀ g ∈ gs, Sized g.img) (hw : ∀ g ∈ gs, ∀ w ∈ glyphWords g, Spelled w) (hlt : gs.length < W32)
    (hd : Datas.empty.loadAll (gs.map LGlyph.img) = .ok d) (ht : glyphsWrite gs = .ok tg) (hfg : f.glyphs = some tg)
    (hfd : f.datas = some (datasWrite d)) (himg : loadImage f.image 128 = .ok i) (hi : LineImage i)
    (hall : ∀ i j, i < gs.length → j < gs.length → row d.tables i = row d.tables j) :
    (∀ dict E, loadDict dict = .ok E → program8 P S mv { f with dict := dict } = .ub) ∨
    ∃ r1 r2 ls F, Looks isStop ls F ∧ (∀ l ∈ ls, ∀ w ∈ l, LGlyphWord gs w ∨ w = [95] ∨ w = [32]) ∧ ∀ S' ws dict E, loadDict dict = .ok E →
      DictOf S' ws E → program8 P S mv { f with dict := dict } = .ok ⟨r1, r2, encAll (F ws)⟩ := by
  obtain ⟨t, hprog, hlet⟩ := program8_letters P S mv f gs d tg hg hv hs hlt hd ht hfg hfd hall
  have hp : ∀ dict E, loadDict dict = .ok E → program8 P S mv { f with dict := dict } = _ := fun dict E hE => hprog f.image dict i E himg hE
  rcases extract6_dict (Rd := Reads8 P (gs.map LGlyph.img) (gs.map glyphWords)) (Jm := Jam8 (gs.map LGlyph.img) (gs.map glyphWords))
    (Kn := fun _ => False) (cand := LGlyphWord gs)
    ⟨fun _ _ => reads8_head, hlet, by
      intro p o hr w hwm
      obtain ⟨g, v, _, hgv, hwv⟩ := (hr.words w).1 hwm
      rw [List.getElem?_map] at hgv
      obtain ⟨gl, hgl, rfl⟩ := Option.map_eq_some_iff.1 hgv
      exact hw gl (List.mem_of_getElem? hgl) w hwv, fun _ _ hr hn => (hr.read hn).1, fun _ _ hr hn => (hr.unread hn).1, fun _ _ _ h => h.elim⟩
    (by
      intro p o hr w hwm
      obtain ⟨g, v, _, hgv, hwv⟩ := (hr.words w).1 hwm
      rw [List.getElem?_map] at hgv
      obtain ⟨gl, hgl, rfl⟩ := Option.map_eq_some_iff.1 hgv
      obtain ⟨cs, _, hcs, e⟩ := hw gl (List.mem_of_getElem? hgl) w hwv
      exact ⟨cs, e, hcs, gl, List.mem_of_getElem? hgl, by rw [← e]; exact hwv⟩) hi with h | ⟨r1, r2, cs, hc, h⟩
  · exact .inl fun dict E hE => by rw [hp dict E hE]; exact h E
  · exact .inr ⟨r1, r2, cs, fun ws => saying ws cs, saying_looks cs.length cs (Nat.le_refl _), hc,
      fun S' ws dict E hE hdict => by rw [hp dict E hE]; exact h ws E (hdict.searches _ _)⟩

/-- **C118** for `extract_text6`: a larger dictionary, and two dictionaries together. -/
theorem C118_program6 (S S' S'' S3 : StdSort) (f : ProgFiles) (gs : List LGlyph) (d : Datas) (ws ws' us : List (List Nat)) (E E' E'' : List FNode)
    (dict both : Option TextFile) (tg : List Nat) (i : Image) (hg : ∀ g ∈ gs, g.Good) (hv : ∀ g ∈ gs, g.views ≠ [])
    (hs : ∀ g ∈ gs, Sized g.img) (hw : ∀ g ∈ gs, ∀ w ∈ glyphWords g, Spelled w) (hlt : gs.length + 63 < W32)
    (hd : Datas.empty.loadAll (gs.map LGlyph.img) = .ok d) (ht : glyphsWrite gs = .ok tg) (hfg : f.glyphs = some tg)
    (hfd : f.datas = some (datasWrite d)) (hE : loadDict f.dict = .ok E) (hdict : DictOf S' ws E) (hE' : loadDict dict = .ok E')
    (hdict' : DictOf S'' ws' E') (hE'' : loadDict both = .ok E'') (hdict'' : DictOf S3 us E'') (himg : loadImage f.image 128 = .ok i)
    (hi : LineImage i) :
    ((∀ w ∈ ws, w ∈ ws') → Regrown6 (LGlyphWord gs) ws ws' (program6 S f) (program6 S { f with dict := dict })) ∧
    ((∀ w, w ∈ us ↔ w ∈ ws ∨ w ∈ ws') →
      Rejoined6 (LGlyphWord gs) (program6 S f) (program6 S { f with dict := dict }) (program6 S { f with dict := both })) := by
  rcases program6_looks S f gs d tg i hg hv hs hw hlt hd ht hfg hfd himg hi with h | ⟨r1, r2, ls, F, hL, hc, h⟩
  · exact ⟨fun _ => .inl ⟨h f.dict E hE, h dict E' hE'⟩, fun _ => .inl ⟨h f.dict E hE, h dict E' hE', h both E'' hE''⟩⟩
  · exact ⟨fun hsub => .inr ⟨_, _, ls, _, _, h S' ws f.dict E hE hdict, h S'' ws' dict E' hE' hdict', rfl, rfl, rfl, rfl, hc, hL.grown hsub⟩,
      fun hu => .inr ⟨r1, r2, ls, _, _, _, h S' ws f.dict E hE hdict, h S'' ws' dict E' hE' hdict', h S3 us both E'' hE'' hdict'', hc, hL.both hu⟩⟩

/-- **C118** for `extract_text8`, with glyphs of the same features (see C93). -/
theorem C118_program8 (P : Type) [LawfulProb8 P] (S S' S'' S3 : StdSort) (mv : List Nat → List Nat) (f : ProgFiles) (gs : List LGlyph) (d : Datas)
    (ws ws' us : List (List Nat)) (E E' E'' : List FNode)
    (dict both : Option TextFile) (tg : List Nat) (i : Image) (hg : ∀ g ∈ gs, g.Good) (hv : ∀ g ∈ gs, g.views ≠ [])
    (hs : ∀ g ∈ gs, Sized g.img) (hw : ∀ g ∈ gs, ∀ w ∈ glyphWords g, Spelled w) (hlt : gs.length < W32)
    (hd : Datas.empty.loadAll (gs.map LGlyph.img) = .ok d) (ht : glyphsWrite gs = .ok tg) (hfg : f.glyphs = some tg)
    (hfd : f.datas = some (datasWrite d)) (hE : loadDict f.dict = .ok E) (hdict : DictOf S' ws E) (hE' : loadDict dict = .ok E')
    (hdict' : DictOf S'' ws' E') (hE'' : loadDict both = .ok E'') (hdict'' : DictOf S3 us E'') (himg : loadImage f.image 128 = .ok i)
    (hi : LineImage i) (hall : ∀ i j, i < gs.length → j < gs.length → row d.tables i = row d.tables j) :
    ((∀ w ∈ ws, w ∈ ws') → Regrown6 (LGlyphWord gs) ws ws' (program8 P S mv f) (program8 P S mv { f with dict := dict })) ∧
    ((∀ w, w ∈ us ↔ w ∈ ws ∨ w ∈ ws') →
      Rejoined6 (LGlyphWord gs) (program8 P S mv f) (program8 P S mv { f with dict := dict }) (program8 P S mv { f with dict := both })) := by
  rcases program8_looks P S mv f gs d tg i hg hv hs hw hlt hd ht hfg hfd himg hi hall with h | ⟨r1, r2, ls, F, hL, hc, h⟩
  · exact ⟨fun _ => .inl ⟨h f.dict E hE, h dict E' hE'⟩, fun _ => .inl ⟨h f.dict E hE, h dict E' hE', h both E'' hE''⟩⟩
  · exact ⟨fun hsub => .inr ⟨_, _, ls, _, _, h S' ws f.dict E hE hdict, h S'' ws' dict E' hE' hdict', rfl, rfl, rfl, rfl, hc, hL.grown hsub⟩,
      fun hu => .inr ⟨r1, r2, ls, _, _, _, h S' ws f.dict E hE hdict, h S'' ws' dict E' hE' hdict', h S3 us both E'' hE'' hdict'', hc, hL.both hu⟩⟩

/-- **C118** for both programs: added words that cannot be spelled with the words of the glyphs (and `_` for a letter not recognised, and the
space) change nothing. -/
theorem C118_unspelled6 {cand : List Nat → Prop} {ws ws' : List (List Nat)} {r r' : Res Answer6} (h : Regrown6 cand ws ws' r r')
    (hne : ∀ w ∈ ws', w ≠ []) (hun : ∀ w ∈ ws', SpelledBy (fun u => cand u ∨ u = [95] ∨ u = [32]) w → w ∈ ws) : r' = r := by
  rcases h with ⟨e, e'⟩ | ⟨a, a', ls, t, t', e, e', c1, c2, c3, c4, hc, hG⟩
  · rw [e, e']
  · have ht := grown_unspelled hG hc hne hun
    rw [e, e']
    obtain ⟨x, y, z⟩ := a
    obtain ⟨x', y', z'⟩ := a'
    dsimp only at c1 c2 c3 c4
    rw [c1, c2, c3, c4, ht]

/-! ### Examples -/

/-- With the block an `o` or a `0`: a word that is added takes the place of the first candidates, and that of a word found before if it is
preferred, and only then. -/
example : blocks6With [bytes "0o"] = .ok (⟨bytes "o _ o o ", bytes "o _ o o ", bytes "o? 0o"⟩, ⟨bytes "o _ o o ", bytes "o _ o o ", bytes "o? 0o"⟩) ∧
    blocks6With [bytes "0o", bytes "00", bytes "0"] =
      .ok (⟨bytes "o _ o o ", bytes "o _ o o ", bytes "0? 0o"⟩, ⟨bytes "o _ o o ", bytes "o _ o o ", bytes "0? 0o"⟩) ∧
    blocks6With [bytes "0o", bytes "o0"] =
      .ok (⟨bytes "o _ o o ", bytes "o _ o o ", bytes "o? o0"⟩, ⟨bytes "o _ o o ", bytes "o _ o o ", bytes "o? o0"⟩) := by
  refine ⟨by decide +kernel, by decide +kernel, by decide +kernel⟩

/-- A word can be longer than what is behind it: of the last letter of a word only the first character is compared. -/
example : blocksWith [bytes "aba"] = .ok ⟨bytes "aba!", 0, 3⟩ ∧ blocksWith [bytes "aba", bytes "abab", bytes "ab"] = .ok ⟨bytes "aba!", 0, 3⟩ := by
  refine ⟨by decide +kernel, by decide +kernel⟩

/-- `o0` takes the place of `0o`, since the candidate `o` is the first; `00` does not. -/
example : Widens [[48, 111]] [[48, 111], [111, 48]] (List.replicate 2 [[111], [48]]) [48, 111] [111, 48] ∧
    ¬ Widens [[48, 111]] [[48, 111], [48, 48]] (List.replicate 2 [[111], [48]]) [48, 111] [48, 48] := by
  refine ⟨runText_widens (by decide) _, ?_⟩
  rintro (h | ⟨_, _, before, ch, after, h, h1, h2⟩)
  · cases h
  · have hc : choices (List.replicate 2 [[111], [48]]) = [[[111], [111]], [[111], [48]], [[48], [111]], [[48], [48]]] := by decide
    rw [hc] at h
    rcases before with _ | ⟨b1, _ | ⟨b2, _ | ⟨b3, before⟩⟩⟩
    · cases h; cases h1
    · cases h; cases h1
    · cases h; cases h1
    · have : b3 = [[48], [111]] := by
        simp only [List.cons_append, List.cons.injEq] at h
        exact h.2.2.1.symm
      exact h2 b3 (by simp) (by rw [this]; decide)

end Ppocr.Props

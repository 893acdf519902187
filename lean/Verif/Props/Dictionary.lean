import Verif.Proofs.Dictionary
import Verif.Props.Parts6
import Verif.Props.Alike

/-! # What a dictionary changes in what the programs print (C105) -/

namespace Ppocr.Props
open Ppocr Spec

/-- The answers `r` and `r'` of `ocr2_extract_text` with the dictionaries `ws` and `ws'`: as many letters, as many of them not
recognised, and the same text up to the words that the letters can spell. `cand` holds of the words of the glyphs. -/
def Reread (cand : List Nat → Prop) (ws ws' : List (List Nat)) (r r' : Res Answer) : Prop :=
  (r = .ub ∧ r' = .ub) ∨
  ∃ a a' ls t t', r = .ok a ∧ r' = .ok a' ∧ a.count = a'.count ∧ a.unrecognized = a'.unrecognized ∧ a.text = encAll t ∧
    a'.text = encAll t' ∧ ls.length = a.count ∧ (∀ l ∈ ls, ∀ w ∈ l, cand w) ∧ Retold isSep ws ws' ls t t'

/-- A word of a glyph. -/
def GlyphWord (g : RGlyphs) (W : Nat → List Nat) (w : List Nat) : Prop := ∃ vs ∈ g.views, ∃ v ∈ vs, w = W v.word

section
variable {P : Type} [ScoreDbl P]

/-- The line with candidates that do not depend on the dictionary. -/
theorem readLine_searched (S : StdSort) (d : Datas) (g : RGlyphs) (W : Nat → List Nat) (infos : List WordInfo) (i : Image)
    (bw : List (List Nat)) (hck : checkTables g.views d = .ok bw) (hi : LineImage i) (hknown : AllKnown g W g.views)
    (hfew : (g.views.map List.length).sum < W32) (hinf : InfosSorted infos)
    (hset : ∀ bs as, segment i = .ok bs → Pictures i bs as → ∀ a ∈ as,
      ∃ r val n, a.rotate90 = .ok r ∧ SetupOk (setupOf S g.views d bw : Setup P) val n a r)
    (hheld : FirstHeld (setupOf S g.views d bw : Setup P) infos i) :
    ∃ (bs : List Box) (un : Nat) (lead : List (List (List Nat))) (segs : List (List (List (List Nat)))), segment i = .ok bs ∧
      (lead ++ segs.flatten).length = bs.length ∧ (∀ l ∈ lead ++ segs.flatten, ∀ w ∈ l, GlyphWord g W w) ∧
      un = (segs.flatten.filter (· = [])).length ∧ ∀ (ws' : List (List Nat)) (E' : List FNode), SearchesOn E' ws' (lead ++ segs.flatten).flatten bs.length → readLine P S g d infos E' i =
        .ok ⟨encAll (lead.flatMap firstOf ++ [32].intercalate (segs.map (segText ws'))), un, bs.length⟩ := by
  obtain ⟨bs, as, amb, e1, hp, hal, hl, hlt, hk, hfrom, hex, _⟩ := extractText_run (setupOf S g.views d bw : Setup P) g W
    infos i hi.wf hi.w hi.h hi.size hi.row hknown hset hfew hinf hheld
  obtain ⟨e, rest, her⟩ : ∃ e rest, gaps bs ++ [bs.length] = e :: rest := by
    cases h : gaps bs ++ [bs.length] with
    | nil => simp at h
    | cons e rest => exact ⟨e, rest, rfl⟩
  have hsp : Spaces amb.length (e :: rest) := by rw [hl, ← her]; exact gaps_spaces bs
  obtain ⟨lead, hlead⟩ : ∃ lead, lead = ((amb.map (wordsAt W)).take e).takeWhile isSep := ⟨_, rfl⟩
  have hpre : (amb.map (wordsAt W)).take lead.length = lead := by
    have h1 : lead <+: amb.map (wordsAt W) := by
      rw [hlead]; exact (List.takeWhile_prefix _).trans (List.take_prefix _ _)
    exact (List.prefix_iff_eq_take.1 h1).symm
  have hle : lead.length ≤ e := by
    rw [hlead]
    have := (List.takeWhile_sublist (l := (amb.map (wordsAt W)).take e) isSep).length_le
    rw [List.length_take] at this
    omega
  have hpw : (lead.length :: (if lead.length = e then rest else e :: rest)).Pairwise (· ≤ ·) := by
    have hw := hsp.incr.imp (fun {a b} (h : a < b) => Nat.le_of_lt h)
    by_cases hq : lead.length = e
    · rw [if_pos hq, hq]; exact hw
    · rw [if_neg hq]
      refine List.pairwise_cons.2 ⟨?_, hw⟩
      intro x hx
      rcases List.mem_cons.1 hx with rfl | hx
      · exact hle
      · exact Nat.le_trans hle ((List.pairwise_cons.1 hw).1 x hx)
  have hlast : (lead.length :: (if lead.length = e then rest else e :: rest)).getLast? = some (amb.map (wordsAt W)).length := by
    rw [List.length_map, ← hsp.last]
    by_cases hq : lead.length = e
    · rw [if_pos hq, hq]
    · rw [if_neg hq, List.getLast?_cons_cons]
  have hflat := segments_flatten (amb.map (wordsAt W)) _ _ hpw hlast
  have hall : lead ++ (segments (amb.map (wordsAt W)) lead.length (if lead.length = e then rest else e :: rest)).flatten =
      amb.map (wordsAt W) := by
    rw [hflat]
    conv => lhs; lhs; rw [← hpre]
    rw [List.take_append_drop]
  refine ⟨bs, ((amb.drop lead.length).filter (· = [])).length, lead,
    segments (amb.map (wordsAt W)) lead.length (if lead.length = e then rest else e :: rest), e1, ?_, ?_, ?_, ?_⟩
  · rw [hall, List.length_map, hl]
  · rw [hall]
    intro l hlm w hw
    obtain ⟨m, hm, rfl⟩ := List.mem_map.1 hlm
    obtain ⟨v, hv, rfl⟩ := List.mem_map.1 hw
    obtain ⟨vs, h1, h2⟩ := hfrom m hm v hv
    exact ⟨vs, h1, v, h2, rfl⟩
  · rw [hflat, ← List.map_drop, List.filter_map, List.length_map]
    refine congrArg List.length (List.filter_congr fun m _ => ?_)
    simp [wordsAt]
  · intro ws' E' hd'
    rw [hall, ← hl] at hd'
    obtain ⟨lead', h1, h2⟩ := lineText_searched ws' E' g W _ amb e rest hd'
      (fun l hl v hv => List.mem_flatten.2 ⟨_, List.mem_map_of_mem hl, List.mem_map_of_mem (f := fun v => W v.word) hv⟩) hk hsp (by omega)
    rw [← hlead] at h1
    subst h1
    unfold readLine
    rw [hck, Res.ok_bind, hex, her, h2]
    rfl

/-- The candidates of the letters do not depend on the dictionary. -/
theorem readLine_dict (S : StdSort) (imgs : List Image) (d : Datas) (g : RGlyphs) (W : Nat → List Nat)
    (infos : List WordInfo) (ws : List (List Nat)) (E : List FNode) (i : Image) (hf : Files S imgs d g W infos ws E)
    (hi : LineImage i) :
    (∀ E' : List FNode, readLine P S g d infos E' i = .ub) ∨
    ∃ (n un : Nat) (lead : List (List (List Nat))) (segs : List (List (List (List Nat)))),
      (lead ++ segs.flatten).length = n ∧ (∀ l ∈ lead ++ segs.flatten, ∀ w ∈ l, GlyphWord g W w) ∧
      ∀ (ws' : List (List Nat)) (E' : List FNode), SearchesOn E' ws' (lead ++ segs.flatten).flatten n → readLine P S g d infos E' i =
        .ok ⟨encAll (lead.flatMap firstOf ++ [32].intercalate (segs.map (segText ws'))), un, n⟩ := by
  obtain ⟨bw, hb, hck⟩ := files_tables hf
  by_cases hc : Compared imgs g.views i ∧ FirstHeld (setupOf S g.views d bw : Setup P) infos i
  · right
    obtain ⟨bs, un, lead, segs, _, h1, h2, _, h3⟩ := readLine_searched (P := P) S d g W infos i bw hck hi hf.known hf.few hf.infos
      (by
        intro bs as h1 h2 a ha
        have hla := hi.pictures h1 h2 a ha
        obtain ⟨r, er, _⟩ := hla.rotate
        exact ⟨r, _, _, er, comparable_ok (P := P) S g.views bw hf.learnt hf.letters hf.same hb hf.views hla er (hc.1 bs as h1 h2 a ha)⟩)
      hc.2
    exact ⟨bs.length, un, lead, segs, h1, h2, h3⟩
  · left
    intro E'
    by_cases hcmp : Compared imgs g.views i
    · unfold readLine
      rw [hck, Res.ok_bind]
      refine extractText_unheld (setupOf S g.views d bw : Setup P) g infos E' i hi.wf hi.w hi.h hi.size hi.row ?_ ?_ hf.few hf.infos
        fun hh => hc ⟨hcmp, hh⟩
      · intro vs hvs v hv
        have := hf.known vs hvs v hv
        exact ⟨_, getWord_of this.holds this.small⟩
      · intro bs as h1 h2 a ha
        have hla := hi.pictures h1 h2 a ha
        obtain ⟨r, er, _⟩ := hla.rotate
        exact ⟨r, _, _, er, comparable_ok (P := P) S g.views bw hf.learnt hf.letters hf.same hb hf.views hla er (hcmp bs as h1 h2 a ha)⟩
    · exact readLine_blocked S imgs d g W infos E' i hf.learnt hf.letters hf.same hf.views hf.known hi hcmp

theorem segs_agree {ws ws' : List (List Nat)} {chars : Nat → Prop} (h : AgreeOn ws ws' chars) :
    ∀ segs : List (List (List (List Nat))), (∀ l ∈ segs.flatten, ∀ w ∈ l, ∀ c ∈ w, chars c) →
      segs.map (segText ws) = segs.map (segText ws') := by
  intro segs hc
  refine List.map_congr_left fun s hs => segText_agree h s.length s (Nat.le_refl _) fun l hl => hc l (List.mem_flatten.2 ⟨s, hs, hl⟩)

/-- The program on files of which it loads all. -/
theorem program_loaded {S : StdSort} {f : ProgFiles} {imgs : List Image} {d : Datas} {g : RGlyphs} {W : Nat → List Nat}
    {infos : List WordInfo} {ws : List (List Nat)} {E : List FNode} (hf : Files S imgs d g W infos ws E)
    (h1 : loadDatas f.datas = .ok d) (h2 : loadGlyphs f.glyphs = .ok g) (h3 : loadInfos S g f.infos = .ok infos)
    {dict : Option TextFile} {E' : List FNode} (h4 : loadDict dict = .ok E') {i : Image} (h5 : loadImage f.image 128 = .ok i) :
    program P S { f with dict := dict } = readLine P S g d infos E' i := by
  obtain ⟨bw, hb, hck⟩ := files_tables hf
  unfold program readLine
  simp only []
  rw [h4, Res.ok_bind, h1, Res.ok_bind, h2, Res.ok_bind, if_neg (by rw [learnt_size hf.learnt, hf.same]; simp), h3, Res.ok_bind,
    hck, Res.ok_bind, Res.ok_bind, h5, Res.ok_bind]

/-- **C105** for `ocr2_extract_text`: with another dictionary the same line has as many letters, of which as many are not
recognised, and its text differs in words only, each of which is what the first candidates spell or a word of the dictionary that
some candidates spell. Whether it is read at all does not depend on the dictionary. -/
theorem C105_program (S S' : StdSort) (f : ProgFiles) (imgs : List Image) (d : Datas) (g : RGlyphs) (W : Nat → List Nat)
    (infos : List WordInfo) (ws ws' : List (List Nat)) (E E' : List FNode) (dict : Option TextFile) (i : Image)
    (hf : Files S imgs d g W infos ws E) (h1 : loadDatas f.datas = .ok d) (h2 : loadGlyphs f.glyphs = .ok g)
    (h3 : loadInfos S g f.infos = .ok infos) (hE : loadDict f.dict = .ok E) (hE' : loadDict dict = .ok E') (hd' : DictOf S' ws' E')
    (himg : loadImage f.image 128 = .ok i) (hi : LineImage i) :
    Reread (GlyphWord g W) ws ws' (program P S f) (program P S { f with dict := dict }) := by
  rw [show program P S f = _ from program_loaded hf h1 h2 h3 hE himg, program_loaded hf h1 h2 h3 hE' himg]
  rcases readLine_dict (P := P) S imgs d g W infos ws E i hf hi with h | ⟨n, un, lead, segs, hn, hc, h⟩
  · exact .inl ⟨h E, h E'⟩
  · refine .inr ⟨_, _, lead ++ segs.flatten, _, _, h ws E (hf.dict.searches _ _), h ws' E' (hd'.searches _ _), rfl, rfl, rfl, rfl, hn, hc, ?_⟩
    exact (retold_same isSep ws ws' lead _).append (intercalate_retold ws ws' _ _ (fun ls => segText_retold ws ws' ls.length ls (Nat.le_refl _)) segs)

/-- **C105**: words with a character that no glyph stands for do not matter, nor does the order of the words, nor how often one
is in the dictionary, nor how it is sorted. -/
theorem C105_same_words (S S' : StdSort) (f : ProgFiles) (imgs : List Image) (d : Datas) (g : RGlyphs) (W : Nat → List Nat)
    (infos : List WordInfo) (ws ws' : List (List Nat)) (E E' : List FNode) (dict : Option TextFile) (i : Image)
    (hf : Files S imgs d g W infos ws E) (h1 : loadDatas f.datas = .ok d) (h2 : loadGlyphs f.glyphs = .ok g)
    (h3 : loadInfos S g f.infos = .ok infos) (hE : loadDict f.dict = .ok E) (hE' : loadDict dict = .ok E') (hd' : DictOf S' ws' E')
    (himg : loadImage f.image 128 = .ok i) (hi : LineImage i)
    (hws : ∀ w, (∀ c ∈ w, ∃ u, GlyphWord g W u ∧ c ∈ u) → (w ∈ ws ↔ w ∈ ws')) :
    program P S { f with dict := dict } = program P S f := by
  rw [show program P S f = _ from program_loaded hf h1 h2 h3 hE himg, program_loaded hf h1 h2 h3 hE' himg]
  rcases readLine_dict (P := P) S imgs d g W infos ws E i hf hi with h | ⟨n, un, lead, segs, hn, hc, h⟩
  · rw [h E, h E']
  · rw [h ws E (hf.dict.searches _ _), h ws' E' (hd'.searches _ _), segs_agree (chars := fun c => ∃ u, GlyphWord g W u ∧ c ∈ u) hws segs fun l hl w hw c hcw =>
      ⟨w, hc l (List.mem_append_right _ hl) w hw, hcw⟩]

end

/-! ### `extract_text6` and `extract_text8` -/

/-- The answers `r` and `r'` of `extract_text6` or `extract_text8` with the dictionaries `ws` and `ws'`: the same two words per
letter, and the same text up to the words that the letters can spell. `cand` holds of the words of the glyphs; the candidates of
a letter that is not recognised are none, or `_`, and the space is a letter of its own. -/
def Reread6 (cand : List Nat → Prop) (ws ws' : List (List Nat)) (r r' : Res Answer6) : Prop :=
  (r = .ub ∧ r' = .ub) ∨
  ∃ a a' ls t t', r = .ok a ∧ r' = .ok a' ∧ a.res1 = a'.res1 ∧ a.res2 = a'.res2 ∧ a.res3 = encAll t ∧
    a'.res3 = encAll t' ∧ (∀ l ∈ ls, ∀ w ∈ l, cand w ∨ w = [95] ∨ w = [32]) ∧ Retold isStop ws ws' ls t t'

/-- The candidates of the letters do not depend on the dictionary. -/
theorem extract6_dict {F : Image → Image → Res Letter6} {Rd : Image → Letter6 → Prop} {Jm Kn : Image → Prop} {cand : List Nat → Prop}
    (L : Letters6 F Rd Jm Kn) (hcand : ∀ a o, Rd a o → ∀ w ∈ o.amb, ∃ cs, w = encAll cs ∧ (∀ c ∈ cs, Scalar c) ∧ cand cs)
    {i : Image} (hi : LineImage i) :
    (∀ E, extract6 F E i = .ub) ∨
    ∃ r1 r2 cs, (∀ l ∈ cs, ∀ w ∈ l, cand w ∨ w = [95] ∨ w = [32]) ∧
      ∀ (dict : List (List Nat)) (E : List FNode), SearchesOn E dict cs.flatten cs.length →
        extract6 F E i = .ok ⟨r1, r2, encAll (saying dict cs)⟩ := by
  obtain ⟨bs, as, e, hp, hal, hres⟩ := line6_run (F := F) (Rd := Rd) (Jm := Jm) hi L.head L.run
  rcases hres with ⟨R, l, hR, hloop, f1, f2, f3⟩ | ⟨_, hub⟩
  · right
    obtain ⟨cs, hgood, hcs⟩ := spelled_lists l.amb (by rw [f1]; exact spelled_amb L hR 0 bs)
    refine ⟨l.res1, l.res2, cs.dropWhile isStop, ?_, ?_⟩
    · intro c hc w hw
      have hc := (List.dropWhile_sublist (l := cs) isStop).subset hc
      have hsc := hgood c hc w hw
      have hmem : encAll w ∈ c.map encAll := List.mem_map_of_mem hw
      have hc' : c.map encAll ∈ withGaps 0 bs (letterWords R [] as) := by rw [← f1, ← hcs]; exact List.mem_map_of_mem hc
      have h95 : [95] = encAll [95] := by decide
      have h32 : [32] = encAll [32] := by decide
      have hone : ∀ x, x = [95] ∨ x = [32] → encAll w = x → w = [95] ∨ w = [32] := by
        rintro x (rfl | rfl) hx
        · rw [h95] at hx
          exact .inl (encAll_inj hsc.2 (by decide) hx)
        · rw [h32] at hx
          exact .inr (encAll_inj hsc.2 (by decide) hx)
      have hamb : ∀ a ∈ as, encAll w ∈ (R a).amb → cand w := by
        intro a ha hw
        obtain ⟨cs', e', hs', hcd⟩ := hcand a _ (hR a ha) _ hw
        rw [encAll_inj hsc.2 hs' e']
        exact hcd
      rcases withGaps_mem _ _ _ _ hc' with h | h
      · rw [h] at hmem
        exact .inr (hone _ (.inr rfl) (List.mem_singleton.1 hmem))
      · obtain ⟨a, ha, h | h⟩ := letterWords_mem R as [] _ h
        · rw [h] at hmem
          exact .inl (hamb a ha hmem)
        · rw [h] at hmem
          by_cases h0 : (R a).amb = []
          · rw [L.unread a _ (hR a ha) h0] at hmem
            exact .inr (hone _ (.inl rfl) (List.mem_singleton.1 hmem))
          · rw [L.read a _ (hR a ha) h0] at hmem
            exact .inl (hamb a ha hmem)
    · intro dict E hd
      unfold extract6
      rw [hloop, Res.ok_bind, ← hcs, text6_searched cs hd hgood, Res.ok_bind]
      rfl
  · left
    intro E
    unfold extract6
    rw [hub]
    rfl

/-- A word of a glyph, as characters. -/
def LGlyphWord (gs : List LGlyph) (w : List Nat) : Prop := ∃ g ∈ gs, encAll w ∈ glyphWords g

theorem extract6_retold {F : Image → Image → Res Letter6} {Rd : Image → Letter6 → Prop} {Jm Kn : Image → Prop} {cand : List Nat → Prop}
    (L : Letters6 F Rd Jm Kn) (hcand : ∀ a o, Rd a o → ∀ w ∈ o.amb, ∃ cs, w = encAll cs ∧ (∀ c ∈ cs, Scalar c) ∧ cand cs)
    {i : Image} (hi : LineImage i) {S S' : StdSort} {ws ws' : List (List Nat)} {E E' : List FNode} (hd : DictOf S ws E)
    (hd' : DictOf S' ws' E') :
    Reread6 cand ws ws' (extract6 F E i) (extract6 F E' i) ∧
    ((∀ w, (∀ c ∈ w, (∃ u, cand u ∧ c ∈ u) ∨ c = 95 ∨ c = 32) → (w ∈ ws ↔ w ∈ ws')) → extract6 F E' i = extract6 F E i) := by
  rcases extract6_dict L hcand hi with h | ⟨r1, r2, cs, hc, h⟩
  · exact ⟨.inl ⟨h E, h E'⟩, fun _ => by rw [h E, h E']⟩
  · refine ⟨.inr ⟨_, _, cs, _, _, h ws E (hd.searches _ _), h ws' E' (hd'.searches _ _), rfl, rfl, rfl, rfl, hc,
      saying_retold ws ws' cs.length cs (Nat.le_refl _)⟩, fun hw => ?_⟩
    rw [h ws E (hd.searches _ _), h ws' E' (hd'.searches _ _), saying_agree (chars := fun c => (∃ u, cand u ∧ c ∈ u) ∨ c = 95 ∨ c = 32) hw cs.length cs
      (Nat.le_refl _) fun l hl w hwl c hcw => ?_]
    rcases hc l hl w hwl with h | rfl | rfl
    · exact .inl ⟨w, h, hcw⟩
    · exact .inr (.inl (List.mem_singleton.1 hcw))
    · exact .inr (.inr (List.mem_singleton.1 hcw))

/-- **C105** for `extract_text6`. -/
theorem C105_program6 (S S' S'' : StdSort) (f : ProgFiles) (gs : List LGlyph) (d : Datas) (ws ws' : List (List Nat)) (E E' : List FNode)
    (dict : Option TextFile) (tg : List Nat) (i : Image) (hg : ∀ g ∈ gs, g.Good) (hv : ∀ g ∈ gs, g.views ≠ [])
    (hs : ∀ g ∈ gs, Sized g.img) (hw : ∀ g ∈ gs, ∀ w ∈ glyphWords g, Spelled w) (hlt : gs.length + 63 < W32)
    (hd : Datas.empty.loadAll (gs.map LGlyph.img) = .ok d) (ht : glyphsWrite gs = .ok tg) (hfg : f.glyphs = some tg)
    (hfd : f.datas = some (datasWrite d)) (hE : loadDict f.dict = .ok E) (hdict : DictOf S' ws E) (hE' : loadDict dict = .ok E')
    (hdict' : DictOf S'' ws' E') (himg : loadImage f.image 128 = .ok i) (hi : LineImage i) :
    Reread6 (LGlyphWord gs) ws ws' (program6 S f) (program6 S { f with dict := dict }) ∧
    ((∀ w, (∀ c ∈ w, (∃ u, LGlyphWord gs u ∧ c ∈ u) ∨ c = 95 ∨ c = 32) → (w ∈ ws ↔ w ∈ ws')) →
      program6 S { f with dict := dict } = program6 S f) := by
  obtain ⟨t, hprog, hlet⟩ := program6_letters S f gs d tg hg hv hs hlt hd ht hfg hfd
  rw [show program6 S f = _ from hprog f.image f.dict i E himg hE, show program6 S { f with dict := dict } = _ from hprog f.image dict i E' himg hE']
  refine extract6_retold (Rd := Reads6 (gs.map LGlyph.img) (gs.map glyphWords)) (Jm := Jam6 (gs.map LGlyph.img) (gs.map glyphWords))
    (Kn := fun _ => False)
    ⟨fun _ _ => reads_head, hlet, ?_, fun _ _ hr hn => (hr.read hn).1, fun _ _ hr hn => (hr.unread hn).1, fun _ _ _ h => h.elim⟩ ?_ hi hdict hdict'
  · intro p o hr w hwm
    obtain ⟨g, v, _, hgv, hwv⟩ := (hr.words w).1 hwm
    rw [List.getElem?_map] at hgv
    obtain ⟨gl, hgl, rfl⟩ := Option.map_eq_some_iff.1 hgv
    exact hw gl (List.mem_of_getElem? hgl) w hwv
  · intro p o hr w hwm
    obtain ⟨g, v, _, hgv, hwv⟩ := (hr.words w).1 hwm
    rw [List.getElem?_map] at hgv
    obtain ⟨gl, hgl, rfl⟩ := Option.map_eq_some_iff.1 hgv
    obtain ⟨cs, _, hcs, e⟩ := hw gl (List.mem_of_getElem? hgl) w hwv
    exact ⟨cs, e, hcs, gl, List.mem_of_getElem? hgl, by rw [← e]; exact hwv⟩

/-- **C105** for `extract_text8`, with glyphs of the same features (see C93). -/
theorem C105_program8 (P : Type) [LawfulProb8 P] (S S' S'' : StdSort) (mv : List Nat → List Nat) (f : ProgFiles) (gs : List LGlyph) (d : Datas)
    (ws ws' : List (List Nat)) (E E' : List FNode)
    (dict : Option TextFile) (tg : List Nat) (i : Image) (hg : ∀ g ∈ gs, g.Good) (hv : ∀ g ∈ gs, g.views ≠ [])
    (hs : ∀ g ∈ gs, Sized g.img) (hw : ∀ g ∈ gs, ∀ w ∈ glyphWords g, Spelled w) (hlt : gs.length < W32)
    (hd : Datas.empty.loadAll (gs.map LGlyph.img) = .ok d) (ht : glyphsWrite gs = .ok tg) (hfg : f.glyphs = some tg)
    (hfd : f.datas = some (datasWrite d)) (hE : loadDict f.dict = .ok E) (hdict : DictOf S' ws E) (hE' : loadDict dict = .ok E')
    (hdict' : DictOf S'' ws' E') (himg : loadImage f.image 128 = .ok i) (hi : LineImage i)
    (hall : ∀ i j, i < gs.length → j < gs.length → row d.tables i = row d.tables j) :
    Reread6 (LGlyphWord gs) ws ws' (program8 P S mv f) (program8 P S mv { f with dict := dict }) ∧
    ((∀ w, (∀ c ∈ w, (∃ u, LGlyphWord gs u ∧ c ∈ u) ∨ c = 95 ∨ c = 32) → (w ∈ ws ↔ w ∈ ws')) →
      program8 P S mv { f with dict := dict } = program8 P S mv f) := by
  obtain ⟨t, hprog, hlet⟩ := program8_letters P S mv f gs d tg hg hv hs hlt hd ht hfg hfd hall
  rw [show program8 P S mv f = _ from hprog f.image f.dict i E himg hE,
    show program8 P S mv { f with dict := dict } = _ from hprog f.image dict i E' himg hE']
  refine extract6_retold (Rd := Reads8 P (gs.map LGlyph.img) (gs.map glyphWords)) (Jm := Jam8 (gs.map LGlyph.img) (gs.map glyphWords))
    (Kn := fun _ => False)
    ⟨fun _ _ => reads8_head, hlet, ?_, fun _ _ hr hn => (hr.read hn).1, fun _ _ hr hn => (hr.unread hn).1, fun _ _ _ h => h.elim⟩ ?_ hi hdict hdict'
  · intro p o hr w hwm
    obtain ⟨g, v, _, hgv, hwv⟩ := (hr.words w).1 hwm
    rw [List.getElem?_map] at hgv
    obtain ⟨gl, hgl, rfl⟩ := Option.map_eq_some_iff.1 hgv
    exact hw gl (List.mem_of_getElem? hgl) w hwv
  · intro p o hr w hwm
    obtain ⟨g, v, _, hgv, hwv⟩ := (hr.words w).1 hwm
    rw [List.getElem?_map] at hgv
    obtain ⟨gl, hgl, rfl⟩ := Option.map_eq_some_iff.1 hgv
    obtain ⟨cs, _, hcs, e⟩ := hw gl (List.mem_of_getElem? hgl) w hwv
    exact ⟨cs, e, hcs, gl, List.mem_of_getElem? hgl, by rw [← e]; exact hwv⟩

/-! ### Examples -/

/-- Two blocks, read with the dictionary made from the words `ws` after the block was shown as `ab`. -/
def blocksWith (ws : List (List Nat)) : Res Answer := do
  let t ← makeTrie insertionSort [some (wordFile ws)]
  learnAndRead Frac insertionSort 128 [⟨ppm (spread [(0, 2), (1, 1)]), some (bytes "ab !"), bytes "font"⟩]
    (ppm (spread [(0, 2), (1, 2), (1, 1)])) none (some (some t))

/-- The dictionary changes the text; words with other characters, the order and repetitions do not. -/
example : blocksWith [bytes "a"] = .ok ⟨bytes "abab!", 0, 3⟩ ∧ blocksWith [bytes "aba"] = .ok ⟨bytes "aba!", 0, 3⟩ ∧
    blocksWith [bytes "z", bytes "aba", bytes "abz", bytes "aba"] = .ok ⟨bytes "aba!", 0, 3⟩ := by
  refine ⟨by decide +kernel, by decide +kernel, by decide +kernel⟩

/-- The two texts: one word, the first candidates in one, a word of the dictionary in the other. No other text will do. -/
example : Retold isSep [[97]] [[48, 111, 48]] (List.replicate 3 [[111], [48]]) [111, 111, 111] [48, 111, 48] ∧
    ¬ Retold isSep [[97]] [[48, 111, 48]] (List.replicate 3 [[111], [48]]) [111, 111, 111] [111, 48, 48] := by
  refine ⟨retold_run _ _ (by decide), ?_⟩
  rintro ⟨ps, _, h2, h3, h4⟩
  by_cases hall : ∀ p ∈ ps, p.2.1 = p.2.2
  · have : ps.flatMap (fun p => p.2.1) = ps.flatMap (fun p => p.2.2) := by
      rw [List.flatMap_def, List.flatMap_def, List.map_congr_left hall]
    rw [← h2, ← h3] at this
    exact absurd this (by decide)
  · obtain ⟨p, hp⟩ := Classical.not_forall.1 hall
    obtain ⟨hp, hne⟩ := Classical.not_imp.1 hp
    have s1 : ∀ x ∈ p.2.1, x ∈ [111, 111, 111] := fun x hx => by rw [h2]; exact List.mem_flatMap.2 ⟨p, hp, hx⟩
    have s2 : p.2.2.Sublist [111, 48, 48] := by
      rw [h3, List.flatMap_def]; exact List.sublist_flatten_of_mem (List.mem_map_of_mem (f := fun p => p.2.2) hp)
    rcases (h4 p hp).resolve_left hne with ⟨_, h5 | ⟨h5, _⟩, h6 | ⟨h6, _⟩⟩
    · exact hne (h5.trans h6.symm)
    · rw [List.mem_singleton.1 h6] at s2
      exact absurd s2 (by decide)
    all_goals
      rw [List.mem_singleton.1 h5] at s1
      exact absurd (s1 97 (by simp)) (by decide)

/-- What the two other programs print with a dictionary for a block that is an `o` or a `0`, and a column that they do not
recognise. -/
def blocks6With (ws : List (List Nat)) : Res (Answer6 × Answer6) := do
  let t ← makeTrie insertionSort [some (wordFile ws)]
  let f ← files8 [⟨block, [⟨bytes "o", bytes "f", 0⟩, ⟨bytes "0", bytes "f", 0⟩]⟩] (spread [(0, 2), (1, 1), (5, 2), (1, 2)])
  let a ← program6 insertionSort { f with dict := some (some t) }
  let b ← program8 Ratio8 insertionSort (fun _ => []) { f with dict := some (some t) }
  return (a, b)

example : blocks6With [bytes "a"] = .ok (⟨bytes "o _ o o ", bytes "o _ o o ", bytes "o? oo"⟩, ⟨bytes "o _ o o ", bytes "o _ o o ", bytes "o? oo"⟩) ∧
    blocks6With [bytes "0o"] = .ok (⟨bytes "o _ o o ", bytes "o _ o o ", bytes "o? 0o"⟩, ⟨bytes "o _ o o ", bytes "o _ o o ", bytes "o? 0o"⟩) ∧
    blocks6With [bytes "z", bytes "0o", bytes "0oz", bytes "0o"] = blocks6With [bytes "0o"] := by
  refine ⟨by decide +kernel, by decide +kernel, by decide +kernel⟩

end Ppocr.Props

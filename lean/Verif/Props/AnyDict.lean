import Verif.Props.Dictionary

/-! # Any dictionary file (C112) -/

namespace Ppocr.Props
open Ppocr Spec

/-! ## The search -/

/-- **C112**, full statement: whatever dictionary file is accepted, no search leaves the dictionary. -/
def C112_statement : Prop :=
  ∀ (file : Option TextFile) (E : List FNode) (table : List (List (List Nat × List Nat))) (out : List Nat),
    loadDict file = .ok E → (∀ cands ∈ table, ∀ p ∈ cands, GoodCand p) → disambiguous E (table.map (List.map mem)) out ≠ .ub

/-- A dictionary whose first node says that there are more first nodes than the file has: every search leaves it. -/
theorem C112_root (f : FNode) (E : List FNode) (table : List (List (List Nat))) (out : List Nat) (ht : table ≠ [])
    (h : (f :: E).length < f.pos) : disambiguous (f :: E) table out = .ub := by
  unfold disambiguous rootRange mkRange
  rw [if_neg (by simpa using ht), rd_of_getElem? (a := f) rfl, Res.ok_bind, if_neg (by omega)]
  rfl

/-- The full statement is false: the loader takes a dictionary of one node that says that there are five. -/
theorem C112_false : ¬ C112_statement := by
  intro h
  refine h (some (some (bytes "97 5 0 1\n"))) [⟨97, 5, 0, true⟩] [[([97], [])]] [] (by decide +kernel) ?_ (by decide +kernel)
  intro cands hc p hp
  rw [List.mem_singleton.1 hc] at hp
  rw [List.mem_singleton.1 hp]
  exact ⟨by simp, by decide⟩

/-- The same further down: the only child of `a` is not in the file. With the word `a` alone it is not looked for. -/
example : loadDict (some (some (bytes "97 1 1 1\n"))) = .ok [⟨97, 1, 1, true⟩] ∧
    disambiguous [⟨97, 1, 1, true⟩] [[mem ([97], [])]] [] = .ok (true, [97]) ∧
    disambiguous [⟨97, 1, 1, true⟩] [[mem ([97], [])], [mem ([97], [])]] [] = .ub := by
  refine ⟨by decide +kernel, by decide +kernel, by decide +kernel⟩

/-- **C112**: in a dictionary whose nodes do not lead out of it, sorted or not, with circles or without, each search ends; it
writes nothing, or what candidates, one per letter, spell. -/
theorem C112_search_partial (E : List FNode) (hE : StaysInside E) (table : List (List (List Nat × List Nat))) (ht : table ≠ [])
    (hg : ∀ cands ∈ table, ∀ p ∈ cands, GoodCand p) :
    (∀ out, disambiguous E (table.map (List.map mem)) out = .ok (false, out)) ∨
    ∃ ch ∈ choices (table.map (List.map Prod.fst)),
      ∀ out, disambiguous E (table.map (List.map mem)) out = .ok (true, out ++ encAll (spellCut ch)) := by
  cases h : choiceL (acceptsAll E) (table.map (List.map Prod.fst)) with
  | none =>
    refine .inl fun out => ?_
    rw [disambiguous_any hE table ht hg out, h]
  | some w =>
    unfold choiceL at h
    obtain ⟨ch, hch, rfl⟩ := Option.map_eq_some_iff.1 h
    refine .inr ⟨ch, List.mem_of_find?_eq_some hch, fun out => ?_⟩
    rw [disambiguous_any hE table ht hg out]
    unfold choiceL
    rw [hch]
    rfl

/-- **C112**: the tool that makes dictionaries makes none that leads out of itself. -/
theorem C112_compiled (S : StdSort) (ws : List (List Nat)) (E : List FNode) (hd : DictOf S ws E) : StaysInside E := by
  obtain ⟨E', e, hin⟩ := dictOf_inside S hd.ne hd.scalar hd.small
  rw [hd.made, Res.ok.injEq] at e
  rw [e]
  exact hin

/-- **C112**: what a dictionary says of a line is what some list of words says: for any letters of a line there are words such
that each run of these letters is looked up as in the dictionary made of those words. -/
theorem C112_words (E : List FNode) (hE : StaysInside E) (A : List (List Nat)) (n : Nat) :
    ∃ ws : List (List Nat), ∀ (table : List (List (List Nat × List Nat))) (out : List Nat), table ≠ [] → table.length ≤ n →
      (∀ cands ∈ table, ∀ p ∈ cands, GoodCand p ∧ p.1 ∈ A) →
      disambiguous E (table.map (List.map mem)) out = .ok (match preferred spellCut ws (table.map (List.map Prod.fst)) with
        | none => (false, out)
        | some ch => (true, out ++ encAll (spellCut ch))) :=
  searchesOn_of_inside hE A n

/-- A circle: after `a` any number of `b`. The words `abbb` and `ab` are found, `ba` is not. The two nodes of the second
dictionary are in the wrong order: of `a` and `b` only one is found. -/
example : loadDict (some (some (bytes "97 1 1 0\n98 0 1 1\n"))) = .ok [⟨97, 1, 1, false⟩, ⟨98, 0, 1, true⟩] ∧
    disambiguous [⟨97, 1, 1, false⟩, ⟨98, 0, 1, true⟩] (List.replicate 4 [mem ([98], []), mem ([97], [])]) [33] =
      .ok (true, 33 :: bytes "abbb") ∧
    disambiguous [⟨97, 1, 1, false⟩, ⟨98, 0, 1, true⟩] [[mem ([98], [])], [mem ([97], [])]] [33] = .ok (false, [33]) ∧
    disambiguous [⟨98, 2, 0, true⟩, ⟨97, 1, 0, true⟩] [[mem ([97], [])]] [] = .ok (false, []) ∧
    disambiguous [⟨98, 2, 0, true⟩, ⟨97, 1, 0, true⟩] [[mem ([98], [])]] [] = .ok (false, []) := by
  refine ⟨by decide +kernel, by decide +kernel, by decide +kernel, by decide +kernel, by decide +kernel⟩

/-! ## The programs -/

section
variable {P : Type} [ScoreDbl P]

/-- **C112** for `ocr2_extract_text`: a dictionary file that does not lead out of itself does no more than a list of words could:
the line has as many letters, of which as many are not recognised, and the text differs in words that the candidates spell.
Whether the line is read at all does not depend on it. -/
theorem C112_program_partial (S : StdSort) (f : ProgFiles) (imgs : List Image) (d : Datas) (g : RGlyphs) (W : Nat → List Nat)
    (infos : List WordInfo) (ws : List (List Nat)) (E E' : List FNode) (dict : Option TextFile) (i : Image)
    (hf : Files S imgs d g W infos ws E) (h1 : loadDatas f.datas = .ok d) (h2 : loadGlyphs f.glyphs = .ok g)
    (h3 : loadInfos S g f.infos = .ok infos) (hE : loadDict f.dict = .ok E) (hE' : loadDict dict = .ok E') (hin : StaysInside E')
    (himg : loadImage f.image 128 = .ok i) (hi : LineImage i) :
    ∃ ws', Reread (GlyphWord g W) ws ws' (program P S f) (program P S { f with dict := dict }) := by
  rw [show program P S f = _ from program_loaded hf h1 h2 h3 hE himg, program_loaded hf h1 h2 h3 hE' himg]
  rcases readLine_dict (P := P) S imgs d g W infos ws E i hf hi with h | ⟨n, un, lead, segs, hn, hc, h⟩
  · exact ⟨[], .inl ⟨h E, h E'⟩⟩
  · obtain ⟨ws', hw⟩ := searchesOn_of_inside hin (lead ++ segs.flatten).flatten n
    refine ⟨ws', .inr ⟨_, _, lead ++ segs.flatten, _, _, h ws E (hf.dict.searches _ _), h ws' E' hw, rfl, rfl, rfl, rfl, hn, hc, ?_⟩⟩
    exact (retold_same isSep ws ws' lead _).append (intercalate_retold ws ws' _ _ (fun ls => segText_retold ws ws' ls.length ls (Nat.le_refl _)) segs)

end

theorem extract6_any {F : Image → Image → Res Letter6} {Rd : Image → Letter6 → Prop} {Jm Kn : Image → Prop} {cand : List Nat → Prop}
    (L : Letters6 F Rd Jm Kn) (hcand : ∀ a o, Rd a o → ∀ w ∈ o.amb, ∃ cs, w = encAll cs ∧ (∀ c ∈ cs, Scalar c) ∧ cand cs)
    {i : Image} (hi : LineImage i) {S : StdSort} {ws : List (List Nat)} {E E' : List FNode} (hd : DictOf S ws E) (hin : StaysInside E') :
    ∃ ws', Reread6 cand ws ws' (extract6 F E i) (extract6 F E' i) := by
  rcases extract6_dict L hcand hi with h | ⟨r1, r2, cs, hc, h⟩
  · exact ⟨[], .inl ⟨h E, h E'⟩⟩
  · obtain ⟨ws', hw⟩ := searchesOn_of_inside hin cs.flatten cs.length
    exact ⟨ws', .inr ⟨_, _, cs, _, _, h ws E (hd.searches _ _), h ws' E' hw, rfl, rfl, rfl, rfl, hc,
      saying_retold ws ws' cs.length cs (Nat.le_refl _)⟩⟩

/-- **C112** for `extract_text6`. -/
theorem C112_program6_partial (S S' : StdSort) (f : ProgFiles) (gs : List LGlyph) (d : Datas) (ws : List (List Nat)) (E E' : List FNode)
    (dict : Option TextFile) (tg : List Nat) (i : Image) (hg : ∀ g ∈ gs, g.Good) (hv : ∀ g ∈ gs, g.views ≠ [])
    (hs : ∀ g ∈ gs, Sized g.img) (hw : ∀ g ∈ gs, ∀ w ∈ glyphWords g, Spelled w) (hlt : gs.length + 63 < W32)
    (hd : Datas.empty.loadAll (gs.map LGlyph.img) = .ok d) (ht : glyphsWrite gs = .ok tg) (hfg : f.glyphs = some tg)
    (hfd : f.datas = some (datasWrite d)) (hE : loadDict f.dict = .ok E) (hdict : DictOf S' ws E) (hE' : loadDict dict = .ok E')
    (hin : StaysInside E') (himg : loadImage f.image 128 = .ok i) (hi : LineImage i) :
    ∃ ws', Reread6 (LGlyphWord gs) ws ws' (program6 S f) (program6 S { f with dict := dict }) := by
  obtain ⟨t, hprog, hlet⟩ := program6_letters S f gs d tg hg hv hs hlt hd ht hfg hfd
  rw [show program6 S f = _ from hprog f.image f.dict i E himg hE, show program6 S { f with dict := dict } = _ from hprog f.image dict i E' himg hE']
  refine extract6_any (Rd := Reads6 (gs.map LGlyph.img) (gs.map glyphWords)) (Jm := Jam6 (gs.map LGlyph.img) (gs.map glyphWords))
    (Kn := fun _ => False)
    ⟨fun _ _ => reads_head, hlet, ?_, fun _ _ hr hn => (hr.read hn).1, fun _ _ hr hn => (hr.unread hn).1, fun _ _ _ h => h.elim⟩ ?_ hi hdict hin
  · intro p o hr w hwm
    obtain ⟨g, v, _, hgv, hwv⟩ := (hr.words w).1 hwm
    rw [List.getElem?_map] at hgv
    obtain ⟨gl, hgl, rfl⟩ := Option.map_eq_some_iff.1 hgv
    exact hw gl (List.mem_of_getElem? hgl) w hwv
  · intro p o hr w hwm
    obtain ⟨g, v, _, hgv, hwv⟩ := (hr.words w).1 hwm
    rw [List.getElem?_map] at hgv
    obtain ⟨gl, hgl, rfl⟩ := Option.map_eq_some_iff.1 hgv
    obtain ⟨cs, _, hcs, e⟩ := hw gl (List.mem_of_getElem? hgl) w hwv
    exact ⟨cs, e, hcs, gl, List.mem_of_getElem? hgl, by rw [← e]; exact hwv⟩

/-- **C112** for `extract_text8`, with glyphs of the same features (see C93). -/
theorem C112_program8_partial (P : Type) [LawfulProb8 P] (S S' : StdSort) (mv : List Nat → List Nat) (f : ProgFiles) (gs : List LGlyph) (d : Datas)
    (ws : List (List Nat)) (E E' : List FNode) (dict : Option TextFile) (tg : List Nat) (i : Image) (hg : ∀ g ∈ gs, g.Good)
    (hv : ∀ g ∈ gs, g.views ≠ []) (hs : ∀ g ∈ gs, Sized g.img) (hw : ∀ g ∈ gs, ∀ w ∈ glyphWords g, Spelled w) (hlt : gs.length < W32)
    (hd : Datas.empty.loadAll (gs.map LGlyph.img) = .ok d) (ht : glyphsWrite gs = .ok tg) (hfg : f.glyphs = some tg)
    (hfd : f.datas = some (datasWrite d)) (hE : loadDict f.dict = .ok E) (hdict : DictOf S' ws E) (hE' : loadDict dict = .ok E')
    (hin : StaysInside E') (himg : loadImage f.image 128 = .ok i) (hi : LineImage i)
    (hall : ∀ i j, i < gs.length → j < gs.length → row d.tables i = row d.tables j) :
    ∃ ws', Reread6 (LGlyphWord gs) ws ws' (program8 P S mv f) (program8 P S mv { f with dict := dict }) := by
  obtain ⟨t, hprog, hlet⟩ := program8_letters P S mv f gs d tg hg hv hs hlt hd ht hfg hfd hall
  rw [show program8 P S mv f = _ from hprog f.image f.dict i E himg hE,
    show program8 P S mv { f with dict := dict } = _ from hprog f.image dict i E' himg hE']
  refine extract6_any (Rd := Reads8 P (gs.map LGlyph.img) (gs.map glyphWords)) (Jm := Jam8 (gs.map LGlyph.img) (gs.map glyphWords))
    (Kn := fun _ => False)
    ⟨fun _ _ => reads8_head, hlet, ?_, fun _ _ hr hn => (hr.read hn).1, fun _ _ hr hn => (hr.unread hn).1, fun _ _ _ h => h.elim⟩ ?_ hi hdict hin
  · intro p o hr w hwm
    obtain ⟨g, v, _, hgv, hwv⟩ := (hr.words w).1 hwm
    rw [List.getElem?_map] at hgv
    obtain ⟨gl, hgl, rfl⟩ := Option.map_eq_some_iff.1 hgv
    exact hw gl (List.mem_of_getElem? hgl) w hwv
  · intro p o hr w hwm
    obtain ⟨g, v, _, hgv, hwv⟩ := (hr.words w).1 hwm
    rw [List.getElem?_map] at hgv
    obtain ⟨gl, hgl, rfl⟩ := Option.map_eq_some_iff.1 hgv
    obtain ⟨cs, _, hcs, e⟩ := hw gl (List.mem_of_getElem? hgl) w hwv
    exact ⟨cs, e, hcs, gl, List.mem_of_getElem? hgl, by rw [← e]; exact hwv⟩

/-! ### Examples -/

/-- Two blocks, read with the dictionary file `t` after the block was shown as `ab`. -/
def blocksFrom (t : List Nat) : Res Answer :=
  learnAndRead Frac insertionSort 128 [⟨ppm (spread [(0, 2), (1, 1)]), some (bytes "ab !"), bytes "font"⟩]
    (ppm (spread [(0, 2), (1, 2), (1, 1)])) none (some (some t))

/-- With a node that is its own child: `ab` with any number of `a` after it, and `a` with any number of `b` after it. The last
dictionary leads out of itself. -/
example : blocksFrom (bytes "97 1 1 0\n98 1 1 0\n97 0 1 1\n") = .ok ⟨bytes "aba!", 0, 3⟩ ∧
    blocksFrom (bytes "97 1 1 0\n98 0 1 1\n") = .ok ⟨bytes "abab!", 0, 3⟩ ∧
    blocksFrom (bytes "97 7 1 0\n") = .ub := by
  refine ⟨by decide +kernel, by decide +kernel, by decide +kernel⟩

end Ppocr.Props

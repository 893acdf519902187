import Verif.Proofs.Program8

/-! # C91, C92, C93: the letters and the results of `extract_text8` -/

namespace Ppocr.Props
open Ppocr Spec

/-! ## C91: the words of a letter -/

section
variable (P : Type) [LawfulProb8 P]

/-- **C91**: for learnt pictures of a reasonable size, each with words, every letter of a reasonable size is read, its candidates
being the words of the chosen pictures (`Reads8`), unless the search among the pictures of a word divides by zero (`Jam8`). -/
theorem C91_letter (S : StdSort) (imgs : List Image) (d : Datas) (ws : List Words) (hd : Datas.empty.loadAll imgs = .ok d)
    (hi : ∀ i ∈ imgs, Sized i) (hl : ws.length = imgs.length) (hne : [] ∉ ws) (hn : imgs.length < W32) :
    ∃ bw, makeByWord (ws.map some) = .ok bw ∧ ∀ a r, Sized a → a.rotate90 = .ok r →
      (∃ o, computeLetter8 P S ⟨ws, d, bw⟩ a r = .ok o ∧ Reads8 P imgs ws a o) ∨
        (computeLetter8 P S ⟨ws, d, bw⟩ a r = .ub ∧ Jam8 imgs ws a) := by
  obtain ⟨d', e, hL⟩ := learnt_loadAll imgs hi
  rw [hd, Res.ok.injEq] at e
  subst e
  obtain ⟨bw, eb, _⟩ := makeByWord_map hne
  refine ⟨bw, eb, fun a r ha har => ?_⟩
  exact letter8_run (P := P) (t := ⟨ws, d, bw⟩) (ws := ws) S ⟨hL, hi, hl, hne, eb⟩ rfl hn ha har

/-- **C91**, the letter is read if a picture matches it, if no picture clashes with it, or if no two pictures have the same
first word. -/
theorem C91_read (S : StdSort) (imgs : List Image) (d : Datas) (ws : List Words) (hd : Datas.empty.loadAll imgs = .ok d)
    (hi : ∀ i ∈ imgs, Sized i) (hl : ws.length = imgs.length) (hne : [] ∉ ws) (hn : imgs.length < W32) (a r : Image)
    (ha : Sized a) (hr : a.rotate90 = .ok r)
    (h : (∃ i ∈ imgs, Exact8 i a) ∨ (∀ i ∈ imgs, ¬ Clash i a) ∨
      ∀ (g j : Nat) (v u : Words), ws[g]? = some v → ws[j]? = some u → u.head? = v.head? → j = g) :
    ∃ bw o, makeByWord (ws.map some) = .ok bw ∧ computeLetter8 P S ⟨ws, d, bw⟩ a r = .ok o ∧ Reads8 P imgs ws a o := by
  obtain ⟨bw, eb, hrun⟩ := C91_letter P S imgs d ws hd hi hl hne hn
  rcases hrun a r ha hr with ⟨o, ho, h'⟩ | ⟨_, hm, g, i, j, b, _, _, _, htw, hb, _, hc⟩
  · exact ⟨bw, o, eb, ho, h'⟩
  · exfalso
    rcases h with ⟨i, him, he⟩ | h | h
    · obtain ⟨k, hk⟩ := List.getElem?_of_mem him
      exact hm k ⟨i, hk, he⟩
    · exact h b (List.mem_of_getElem? hb) hc
    · obtain ⟨hjg, v, u, e1, e2, e3⟩ := htw
      exact hjg (h g j v u e1 e2 e3)

/-- **C91**, two sorts give the same candidates up to their order. -/
theorem C91_sorts (S S' : StdSort) (imgs : List Image) (d : Datas) (ws : List Words) (hd : Datas.empty.loadAll imgs = .ok d)
    (hi : ∀ i ∈ imgs, Sized i) (hl : ws.length = imgs.length) (hne : [] ∉ ws) (hn : imgs.length < W32) (bw : List (List Nat))
    (hb : makeByWord (ws.map some) = .ok bw) (a r : Image) (ha : Sized a) (hr : a.rotate90 = .ok r) (o o' : Letter6)
    (ho : computeLetter8 P S ⟨ws, d, bw⟩ a r = .ok o) (ho' : computeLetter8 P S' ⟨ws, d, bw⟩ a r = .ok o') (w : List Nat) :
    w ∈ o.amb ↔ w ∈ o'.amb := by
  have key : ∀ (S : StdSort) (o : Letter6), computeLetter8 P S ⟨ws, d, bw⟩ a r = .ok o → Reads8 P imgs ws a o := by
    intro S o ho
    obtain ⟨bw', eb, h⟩ := C91_letter P S imgs d ws hd hi hl hne hn
    rw [hb, Res.ok.injEq] at eb
    subst eb
    rcases h a r ha hr with ⟨o1, e, h⟩ | ⟨e, _⟩
    · rw [ho, Res.ok.injEq] at e
      subst e
      exact h
    · rw [ho] at e; cases e
  rw [(key S o ho).words, (key S' o' ho').words]

/-! ## C92: a learnt picture -/

/-- **C92** as stated: a letter that looks exactly like a learnt picture has its words among its candidates. -/
def C92_statement : Prop :=
  ∀ (S : StdSort) (imgs : List Image) (d : Datas) (ws : List Words), Datas.empty.loadAll imgs = .ok d → (∀ i ∈ imgs, Sized i) →
    ws.length = imgs.length → [] ∉ ws → imgs.length < W32 →
    ∃ bw, makeByWord (ws.map some) = .ok bw ∧ ∀ (g : Nat) (i r : Image) (v : Words), imgs[g]? = some i →
      i.rotate90 = .ok r → ws[g]? = some v → ∃ o, computeLetter8 P S ⟨ws, d, bw⟩ i r = .ok o ∧ ∀ w ∈ v, w ∈ o.amb

/-- **C92**, partial: for the pictures whose features are the same turned, for example those that look the same turned. Missing:
the others (`C92_lost`, `C92_wrong`). -/
theorem C92_turned_partial (S : StdSort) (imgs : List Image) (d : Datas) (ws : List Words) (hd : Datas.empty.loadAll imgs = .ok d)
    (hi : ∀ i ∈ imgs, Sized i) (hl : ws.length = imgs.length) (hne : [] ∉ ws) (hn : imgs.length < W32) :
    ∃ bw, makeByWord (ws.map some) = .ok bw ∧ ∀ (g : Nat) (i r : Image) (v : Words), imgs[g]? = some i →
      i.rotate90 = .ok r → ws[g]? = some v →
      (r = i ∨ ∀ f, (f, Policy.img90) ∈ simpleStrats → feature (f, .img90) i r = feature (f, .img) i r) →
      ∃ o, computeLetter8 P S ⟨ws, d, bw⟩ i r = .ok o ∧ ∀ w ∈ v, w ∈ o.amb := by
  obtain ⟨bw, eb, hrun⟩ := C91_letter P S imgs d ws hd hi hl hne hn
  refine ⟨bw, eb, ?_⟩
  intro g i r v hg hr hv hc
  have hsi := hi i (List.mem_of_getElem? hg)
  have hval := val6_ok hsi (hsi.rotated hr)
  have hex : Exact8 i i := by
    refine ⟨r, r, hr, hr, fun s hs => ?_⟩
    obtain ⟨f, p⟩ := s
    cases p with
    | img => exact ⟨_, (hval _ hs).1, (hval _ hs).1⟩
    | img90 =>
      rcases hc with rfl | hc
      · exact ⟨_, (hval _ hs).1, (hval _ hs).1⟩
      · exact ⟨_, (hc f hs).trans (hval _ hs).1, (hval _ hs).1⟩
  rcases hrun i r hsi hr with ⟨o, ho, h⟩ | ⟨_, hm, _⟩
  · exact ⟨o, ho, fun w hw => (h.words w).2 ⟨g, v, .inl ⟨i, hg, hex⟩, hv, hw⟩⟩
  · exact absurd ⟨i, hg, hex⟩ (hm g)

/-- **C92**, the others: if a feature of the turned picture differs by more than a tenth of its interval, then the letter gets no
word from its own picture, and none at all if no other picture is near to it. -/
theorem C92_lost (S : StdSort) (imgs : List Image) (d : Datas) (ws : List Words) (hd : Datas.empty.loadAll imgs = .ok d)
    (hi : ∀ i ∈ imgs, Sized i) (hl : ws.length = imgs.length) (hne : [] ∉ ws) (hn : imgs.length < W32)
    (i r : Image) (hsi : Sized i) (hr : i.rotate90 = .ok r) (f : Feat) (hf : (f, Policy.img90) ∈ simpleStrats)
    (x y : Nat) (hx : feature (f, .img) i r = .ok (.num x)) (hy : feature (f, .img90) i r = .ok (.num y))
    (hxy : y + f.k / 10 < x ∨ x + f.k / 10 < y) :
    ∃ bw, makeByWord (ws.map some) = .ok bw ∧ ((∀ j ∈ imgs, j ≠ i → ¬ Near8 j i) →
        ∃ o, computeLetter8 P S ⟨ws, d, bw⟩ i r = .ok o ∧ o.amb = [] ∧ o.r1 = [95] ∧ o.r2 = [95]) ∧
      ∀ o, computeLetter8 P S ⟨ws, d, bw⟩ i r = .ok o → ∀ w ∈ o.amb, ∃ (g : Nat) (j : Image) (v : Words), imgs[g]? = some j ∧
        j ≠ i ∧ Near8 j i ∧ ws[g]? = some v ∧ w ∈ v := by
  have hnn : ¬ Near8 i i := by
    rintro ⟨ri, ra, e1, e2, h⟩
    rw [hr] at e1 e2
    cases e1; cases e2
    obtain ⟨x', y', e3, e4, e5, e6⟩ := h (f, .img90) hf
    rw [hy] at e3; rw [hx] at e4
    cases e3; cases e4
    simp only [] at e5 e6
    omega
  have hch : ∀ g, Chosen8 P imgs ws i g → ∃ j, imgs[g]? = some j ∧ j ≠ i ∧ Near8 j i := by
    rintro g (⟨j, hj, he⟩ | ⟨_, ⟨⟨j, hj, hnear, _⟩, _⟩, _⟩)
    · have hnear := exact_near8 he
      exact ⟨j, hj, fun e => hnn (e ▸ hnear), hnear⟩
    · exact ⟨j, hj, fun e => hnn (e ▸ hnear), hnear⟩
  obtain ⟨bw, eb, hrun⟩ := C91_letter P S imgs d ws hd hi hl hne hn
  have hrun' := hrun i r hsi hr
  have hall : ∀ o, computeLetter8 P S ⟨ws, d, bw⟩ i r = .ok o → ∀ w ∈ o.amb, ∃ (g : Nat) (j : Image) (v : Words), imgs[g]? = some j ∧ j ≠ i ∧
      Near8 j i ∧ ws[g]? = some v ∧ w ∈ v := by
    intro o ho w hw
    rcases hrun' with ⟨o1, e, h⟩ | ⟨e, _⟩
    · rw [ho, Res.ok.injEq] at e
      subst e
      obtain ⟨g, v, hc, hv, hwv⟩ := (h.words w).1 hw
      obtain ⟨j, a1, a2, a3⟩ := hch g hc
      exact ⟨g, j, v, a1, a2, a3, hv, hwv⟩
    · rw [ho] at e; cases e
  rcases hrun' with ⟨o, ho, h⟩ | ⟨ho, _, g, j, _, _, hj, hnear, _⟩
  · refine ⟨bw, eb, fun hno => ⟨o, ?_⟩, hall⟩
    have h0 : o.amb = [] := by
      apply List.eq_nil_iff_forall_not_mem.2
      intro w hw
      obtain ⟨g, j, v, a1, a2, a3, _⟩ := hall o ho w hw
      exact hno j (List.mem_of_getElem? a1) a2 a3
    refine ⟨ho, h0, ?_, (h.unread h0).2⟩
    rcases h.first with ⟨g, j, v, a1, a2, _⟩ | ⟨_, a2⟩
    · exact absurd a2 (hno j (List.mem_of_getElem? a1) fun e => hnn (e ▸ a2))
    · exact a2
  · refine ⟨bw, eb, fun hno => ?_, hall⟩
    exact absurd hnear (hno j (List.mem_of_getElem? hj) fun e => hnn (e ▸ hnear))

/-- **C92** is false, whatever a `double` is: `extract_text8` finds nothing for a column although a column is all it was taught. -/
theorem C92_wrong : ¬ C92_statement P := by
  intro h
  obtain ⟨d, hd, _⟩ := learnt_loadAll [stick] (by simpa using stick_sized)
  obtain ⟨t, ht, h1⟩ := h insertionSort [stick] d [[[108]]] hd (by simpa using stick_sized) rfl (by decide) (by decide)
  obtain ⟨o, ho, hw⟩ := h1 0 stick lying [[108]] rfl stick_rotated rfl
  obtain ⟨t', ht', _, h2⟩ := C92_lost P insertionSort [stick] d [[[108]]] hd (by simpa using stick_sized) rfl (by decide) (by decide)
    stick lying stick_sized stick_rotated .dvgravity2 (by decide) 100 50 (by decide +kernel) (by decide +kernel) (by decide)
  rw [ht, Res.ok.injEq] at ht'
  subst ht'
  obtain ⟨g, j, v, a1, a2, _⟩ := h2 o ho [108] (hw _ (by simp))
  exact a2 (by simpa using List.mem_of_getElem? a1)

end

/-! ## Exact fractions in place of `double` -/

/-- The number `num / (low + 1)`. -/
structure Ratio8 where
  num : Nat
  low : Nat
deriving DecidableEq

instance : LawfulProb8 Ratio8 where
  one := ⟨1, 0⟩
  scale p a b := ⟨p.num * a, (p.low + 1) * b - 1⟩
  le p q := decide (p.num * (q.low + 1) ≤ q.num * (p.low + 1))
  total a b h := by
    simp only [decide_eq_false_iff_not, decide_eq_true_eq] at *
    omega
  trans a b c h1 h2 := by
    simp only [decide_eq_true_eq] at *
    apply Nat.le_of_mul_le_mul_right (c := b.low + 1) ?_ (by omega)
    calc a.num * (c.low + 1) * (b.low + 1) = a.num * (b.low + 1) * (c.low + 1) := by ac_rfl
      _ ≤ b.num * (a.low + 1) * (c.low + 1) := Nat.mul_le_mul_right _ h1
      _ = b.num * (c.low + 1) * (a.low + 1) := by ac_rfl
      _ ≤ c.num * (b.low + 1) * (a.low + 1) := Nat.mul_le_mul_right _ h2
      _ = c.num * (a.low + 1) * (b.low + 1) := by ac_rfl
  scale_le p a ha h := by
    simp only [decide_eq_true_eq] at *
    have : p.num * a ≤ (p.low + 1) * 100 := Nat.mul_le_mul (by omega) ha
    omega
  scale_cut p a ha h := by
    simp only [decide_eq_true_eq, decide_eq_false_iff_not] at *
    have h1 : p.num * a ≤ (p.low + 1) * a := Nat.mul_le_mul_right _ (by omega)
    have h2 : (p.low + 1) * a < (p.low + 1) * 100 := Nat.mul_lt_mul_of_pos_left ha (by omega)
    omega
  scale_lt p a ha h := by
    simp only [decide_eq_false_iff_not] at *
    have h1 : p.num * a ≤ p.num * 100 := Nat.mul_le_mul_left _ ha
    omega
  scale_full p h := by
    simp only [decide_eq_true_eq] at *
    omega

/-- What `extract_text8` makes of the letter `a` when taught `imgs` with the words `ws`. -/
def taught8 (imgs : List Image) (ws : List Words) (a : Image) : Res Letter6 := do
  let d ← Datas.empty.loadAll imgs
  let bw ← makeByWord (ws.map some)
  let r ← a.rotate90
  computeLetter8 Ratio8 insertionSort ⟨ws, d, bw⟩ a r

/-- Taught a column and a block, it finds the block but not the column. -/
example : taught8 [stick, block] [[[108]], [[111], [48]]] block = .ok ⟨[111], [111], [[111], [48]], [[111], [48]]⟩ ∧
    taught8 [stick, block] [[[108]], [[111], [48]]] stick = .ok ⟨[95], [95], [], [[95]]⟩ := by decide +kernel

/-- A learnt picture that does not match itself, but is near and has the bars. If there is another picture of its word, that one
must have the zones of the letter too: a bar at the top does not, so nothing is found; a column does. -/
example : taught8 [holed] [[[97]]] holed = .ok ⟨[97], [97], [[97]], [[97]]⟩ ∧
    taught8 [holed, ⟨⟨3, 3⟩, [120, 120, 120, 45, 45, 45, 45, 45, 45]⟩] [[[97]], [[97]]] holed = .ok ⟨[97], [95], [], [[95]]⟩ ∧
    taught8 [holed, stick] [[[97]], [[97], [98]]] holed = .ok ⟨[97], [97], [[97]], [[97]]⟩ := by decide +kernel

/-- Two learnt pictures with a hole in different places. The first is read as the second, which is 71.9 percent like it and not 71.1
as it is itself. -/
example : taught8 [⟨⟨3, 4⟩, [120, 120, 120, 120, 120, 120, 45, 120, 120, 120, 120, 120]⟩, holed] [[[97]], [[98]]]
    ⟨⟨3, 4⟩, [120, 120, 120, 120, 120, 120, 45, 120, 120, 120, 120, 120]⟩ = .ok ⟨[98], [98], [[98]], [[98]]⟩ := by decide +kernel

/-! ## C93: the program -/

/-- The program with the files that the learning tools write for glyphs with the same features and some line: what it makes of
the letters. -/
theorem program8_letters (P : Type) [LawfulProb8 P] (S : StdSort) (mv : List Nat → List Nat) (f : ProgFiles) (gs : List LGlyph)
    (d : Datas) (tg : List Nat)
    (hg : ∀ g ∈ gs, g.Good) (hv : ∀ g ∈ gs, g.views ≠ []) (hs : ∀ g ∈ gs, Sized g.img) (hlt : gs.length < W32)
    (hd : Datas.empty.loadAll (gs.map LGlyph.img) = .ok d) (ht : glyphsWrite gs = .ok tg) (hfg : f.glyphs = some tg)
    (hfd : f.datas = some (datasWrite d))
    (hall : ∀ i j, i < gs.length → j < gs.length → row d.tables i = row d.tables j) :
    ∃ t : Tab8, (∀ image dict i E, loadImage image 128 = .ok i → loadDict dict = .ok E →
        program8 P S mv { f with image := image, dict := dict } = extract6 (computeLetter8 P S t) E i) ∧
      ∀ a r, Sized a → a.rotate90 = .ok r →
        (∃ o, computeLetter8 P S t a r = .ok o ∧ Reads8 P (gs.map LGlyph.img) (gs.map glyphWords) a o) ∨
        (computeLetter8 P S t a r = .ub ∧ Jam8 (gs.map LGlyph.img) (gs.map glyphWords) a) := by
  have hsi : ∀ j ∈ gs.map LGlyph.img, Sized j := by simpa using hs
  obtain ⟨d', e, hL⟩ := learnt_loadAll (gs.map LGlyph.img) hsi
  rw [hd, Res.ok.injEq] at e
  subst e
  have hL' : Learnt (gs.map LGlyph.img) ⟨d.tables, Ctxs.fresh⟩ := ⟨hL.strats, hL.rows⟩
  obtain ⟨hfit, hsz⟩ := loaded_fits hsi (by simp only [List.length_map, W32] at *; omega) hd
  rw [List.length_map] at hsz
  obtain ⟨t, e1, e2⟩ := C46_round_trip gs [] hg
  rw [ht, Res.ok.injEq] at e1
  subst e1
  obtain ⟨ws, ew, hsame⟩ := allWords_same gs
  have hwl : ws.length = gs.length := by rw [hsame.len, List.length_map]
  have hne : [] ∉ ws := by
    intro h
    obtain ⟨k, hk⟩ := List.getElem?_of_mem h
    obtain ⟨u, hu, e, _⟩ := hsame.get hk
    rw [List.getElem?_map] at hu
    obtain ⟨g, hgk, rfl⟩ := Option.map_eq_some_iff.1 hu
    have := hv g (List.mem_of_getElem? hgk)
    unfold glyphWords at e
    cases hvs : g.views with
    | nil => exact this hvs
    | cons v vs => rw [hvs] at e; cases e
  have hload : loadDatas f.datas = .ok ⟨d.tables, Ctxs.fresh⟩ := by
    rw [hfd]
    unfold loadDatas openText
    simp only [Res.ok_bind]
    rw [datasRead_write hfit]
    rfl
  have hlg : loadLGlyphs f.glyphs = .ok gs := by
    rw [hfg]
    unfold loadLGlyphs openText
    simp only [Res.ok_bind]
    rw [e2]
    rfl
  have hsz' : (⟨d.tables, Ctxs.fresh⟩ : Datas).size = gs.length := hsz
  obtain ⟨idx, imgs', p, bw, t, e3, e4, e5, hm, hT⟩ := tab8_ok S mv hL' hsi (by rw [hwl, List.length_map]) hne
    (by rw [List.length_map]; exact hlt) (by rw [List.length_map]; exact hall)
  refine ⟨t, ?_, ?_⟩
  · intro image dict i E himg hE
    unfold program8 tables8
    rw [hE, Res.ok_bind, hload, Res.ok_bind, hlg, Res.ok_bind, if_neg (by rw [hsz']; simp), ew, Res.ok_bind, e3, Res.ok_bind, e4,
      Res.ok_bind, Res.pure_eq, Res.ok_bind]
    simp only []
    rw [e5, Res.ok_bind, himg, Res.ok_bind]
  · intro a r ha har
    rcases letter8_run (P := P) S hT rfl (by rw [hm.ilen, List.length_map]; exact hlt) ha har with ⟨o, ho, h⟩ | ⟨ho, h⟩
    · exact .inl ⟨o, ho, reads8_same hsame (hm.reads8 h)⟩
    · exact .inr ⟨ho, jam8_same hsame (hm.jam8 h)⟩

/-- What `extract_text8` does with the files that the learning tools write for the glyphs `gs`, a dictionary and a line. Either it
prints, per letter of the line, the two words of C91 for its picture, and the text of C87 for the candidates; or it
divides by zero, and the picture of a letter makes it do so. -/
def Prints8 (P : Type) [Prob8 P] (S : StdSort) (mv : List Nat → List Nat) (f : ProgFiles) (gs : List LGlyph) (dict : List (List Nat))
    (i : Image) : Prop :=
  ∃ bs as, segment i = .ok bs ∧ Pictures i bs as ∧ as.length = bs.length ∧
    ((∃ (R : Image → Letter6) (cs : List (List (List Nat))),
      (∀ a ∈ as, Reads8 P (gs.map LGlyph.img) (gs.map glyphWords) a (R a)) ∧ GoodWords cs ∧
      cs.map (List.map encAll) = withGaps 0 bs (letterWords R [] as) ∧
      program8 P S mv f = .ok ⟨eachSpaced (fun a => (R a).r1) as, eachSpaced (fun a => (R a).r2) as, encAll (saying dict (cs.dropWhile isStop))⟩) ∨
    ((∃ a ∈ as, Jam8 (gs.map LGlyph.img) (gs.map glyphWords) a) ∧ program8 P S mv f = .ub))

/-- **C93** as stated. -/
def C93_statement (P : Type) [LawfulProb8 P] : Prop :=
  ∀ (S S' : StdSort) (mv : List Nat → List Nat) (f : ProgFiles) (gs : List LGlyph) (d : Datas) (dict : List (List Nat)) (E : List FNode)
    (tg : List Nat) (i : Image), (∀ g ∈ gs, g.Good) → (∀ g ∈ gs, g.views ≠ []) → (∀ g ∈ gs, Sized g.img) →
    (∀ g ∈ gs, ∀ w ∈ glyphWords g, Spelled w) → gs.length < W32 → Datas.empty.loadAll (gs.map LGlyph.img) = .ok d →
    glyphsWrite gs = .ok tg → f.glyphs = some tg → f.datas = some (datasWrite d) → loadDict f.dict = .ok E → DictOf S' dict E →
    loadImage f.image 128 = .ok i → LineImage i → Prints8 P S mv f gs dict i

/-- **C93**, partial: if all glyphs have the same features, for example if there is at most one. Missing: the others, with which
it does not get to the image at all (`C93_lost`, `C93_wrong`) or goes on with other words (C83). -/
theorem C93_program_partial (P : Type) [LawfulProb8 P] (S S' : StdSort) (mv : List Nat → List Nat) (f : ProgFiles) (gs : List LGlyph)
    (d : Datas) (dict : List (List Nat)) (E : List FNode)
    (tg : List Nat) (i : Image) (hg : ∀ g ∈ gs, g.Good) (hv : ∀ g ∈ gs, g.views ≠ []) (hs : ∀ g ∈ gs, Sized g.img)
    (hw : ∀ g ∈ gs, ∀ w ∈ glyphWords g, Spelled w) (hlt : gs.length < W32)
    (hd : Datas.empty.loadAll (gs.map LGlyph.img) = .ok d) (ht : glyphsWrite gs = .ok tg) (hfg : f.glyphs = some tg)
    (hfd : f.datas = some (datasWrite d)) (hE : loadDict f.dict = .ok E) (hdict : DictOf S' dict E)
    (himg : loadImage f.image 128 = .ok i) (hi : LineImage i)
    (hall : ∀ i j, i < gs.length → j < gs.length → row d.tables i = row d.tables j) : Prints8 P S mv f gs dict i := by
  obtain ⟨t, hprog, hlet⟩ := program8_letters P S mv f gs d tg hg hv hs hlt hd ht hfg hfd hall
  have hprog : program8 P S mv f = extract6 (computeLetter8 P S t) E i := hprog f.image f.dict i E himg hE
  obtain ⟨bs, as, hseg, hp, hal, hres⟩ := line6_run (F := computeLetter8 P S t) (Rd := Reads8 P (gs.map LGlyph.img) (gs.map glyphWords))
    (Jm := Jam8 (gs.map LGlyph.img) (gs.map glyphWords)) hi (fun _ _ => reads8_head) hlet
  refine ⟨bs, as, hseg, hp, hal, ?_⟩
  rcases hres with ⟨R, l, hR, hloop, f1, f2, f3⟩ | ⟨hj, hub⟩
  · left
    have hspell : ∀ c ∈ l.amb, ∀ w ∈ c, Spelled w := by
      have h95 : Spelled [95] := ⟨[95], by decide, fun x hx => by rw [List.mem_singleton.1 hx]; decide, by decide⟩
      have hamb : ∀ a ∈ as, ∀ w ∈ (R a).amb, Spelled w := by
        intro a ha w hwm
        obtain ⟨g, v, _, hgv, hwv⟩ := ((hR a ha).words w).1 hwm
        rw [List.getElem?_map] at hgv
        obtain ⟨gl, hgl, rfl⟩ := Option.map_eq_some_iff.1 hgv
        exact hw gl (List.mem_of_getElem? hgl) w hwv
      intro c hc w hwc
      rw [f1] at hc
      rcases withGaps_mem _ _ _ _ hc with rfl | hc
      · rw [List.mem_singleton.1 hwc]
        exact ⟨[32], by decide, fun x hx => by rw [List.mem_singleton.1 hx]; decide, by decide⟩
      · obtain ⟨a, ha, rfl | rfl⟩ := letterWords_mem R as [] c hc
        · exact hamb a ha w hwc
        · by_cases h0 : (R a).amb = []
          · rw [((hR a ha).unread h0).1] at hwc
            rw [List.mem_singleton.1 hwc]; exact h95
          · rw [((hR a ha).read h0).1] at hwc
            exact hamb a ha w hwc
    obtain ⟨cs, hgood, hcs⟩ := spelled_lists l.amb hspell
    refine ⟨R, cs, hR, hgood, hcs.trans f1, ?_⟩
    rw [hprog]
    unfold extract6
    rw [hloop, Res.ok_bind, ← hcs, text6_ok hdict cs hgood, Res.ok_bind, f2, f3]
    rfl
  · right
    refine ⟨hj, ?_⟩
    rw [hprog]
    unfold extract6
    rw [hub]
    rfl

/-- **C93**, the others: two glyphs, or more than three, whose features all differ. -/
theorem C93_lost (P : Type) [Prob8 P] (S : StdSort) (mv : List Nat → List Nat) (f : ProgFiles) (gs : List LGlyph) (d : Datas) (E : List FNode)
    (tg : List Nat) (hg : ∀ g ∈ gs, g.Good) (hv : ∀ g ∈ gs, g.views ≠ []) (hs : ∀ g ∈ gs, Sized g.img)
    (hlt : gs.length < W32) (hd : Datas.empty.loadAll (gs.map LGlyph.img) = .ok d)
    (ht : glyphsWrite gs = .ok tg) (hfg : f.glyphs = some tg) (hfd : f.datas = some (datasWrite d))
    (hE : loadDict f.dict = .ok E)
    (hdiff : ∀ i j, i < gs.length → j < gs.length → i ≠ j → row d.tables i ≠ row d.tables j)
    (h2 : 2 ≤ gs.length) (h3 : gs.length ≠ 3) : program8 P S mv f = .ub := by
  unfold program8
  rw [C83_program S mv f gs d E tg hg hv hs hlt hd ht hfg hfd hE hdiff h2 h3]
  rfl

/-- The block `o` and the column `l`. -/
def blockStick : List LGlyph := [⟨block, [⟨bytes "o", bytes "f", 0⟩]⟩, ⟨stick, [⟨bytes "l", bytes "f", 0⟩]⟩]

/-- The files for the glyphs `gs` and the image `i`. -/
def files8 (gs : List LGlyph) (i : Image) : Res ProgFiles := do
  let d ← Datas.empty.loadAll (gs.map LGlyph.img)
  let tg ← glyphsWrite gs
  return ⟨some tg, some (datasWrite d), ppm i, none, none⟩

/-- A block with the words `o` and `0`, and a larger one, with the same features, with the word `O`: all three are candidates for both
blocks, and nothing is found for the column, which is lost in the third result. -/
example : (do
    let f ← files8 [⟨⟨⟨3, 3⟩, List.replicate 9 120⟩, [⟨bytes "o", bytes "f", 0⟩, ⟨bytes "o", bytes "h", 0⟩, ⟨bytes "0", bytes "f", 0⟩]⟩,
      ⟨⟨⟨4, 4⟩, List.replicate 16 120⟩, [⟨bytes "O", bytes "f", 0⟩]⟩] ⟨⟨10, 4⟩,
      [120, 45, 45, 45, 45, 45, 120, 120, 120, 120, 120, 45, 120, 120, 120, 45, 120, 120, 120, 120,
      120, 45, 120, 120, 120, 45, 120, 120, 120, 120, 120, 45, 120, 120, 120, 45, 120, 120, 120, 120]⟩
    program8 Ratio8 insertionSort (fun _ => []) {f with dict := some (some (bytes "48 1 1 0\n79 1 0 1\n"))}) =
    .ok ⟨bytes "_ O O ", bytes "_ O O ", bytes "0O"⟩ := by decide +kernel

/-- The block and the column: undefined. -/
theorem blockStick_ub : (do
    let f ← files8 blockStick sticks
    program8 Ratio8 insertionSort (fun _ => []) f) = .ub := by decide +kernel

/-- **C93** is false. -/
theorem C93_wrong : ¬ C93_statement Ratio8 := by
  intro h
  have hsz : ∀ g ∈ blockStick, Sized g.img := by
    intro g hg
    simp only [blockStick, List.mem_cons, List.not_mem_nil, or_false] at hg
    rcases hg with rfl | rfl
    · exact small_letters block (by simp)
    · exact stick_sized
  have hgood : ∀ g ∈ blockStick, g.Good := by
    intro g hg
    refine ⟨(hsz g hg).wf, ?_, ?_⟩
    · intro v hv
      unfold LView.Good Token
      simp only [blockStick, List.mem_cons, List.not_mem_nil, or_false] at hg
      rcases hg with rfl | rfl <;> (rw [List.mem_singleton.1 hv]; decide +kernel)
    · simp only [blockStick, List.mem_cons, List.not_mem_nil, or_false] at hg
      rcases hg with rfl | rfl <;> decide
  obtain ⟨d, hd, _⟩ := learnt_loadAll (blockStick.map LGlyph.img) (by simpa using hsz)
  obtain ⟨tg, ht, _⟩ := C46_round_trip blockStick [] hgood
  have hf : files8 blockStick sticks = .ok ⟨some tg, some (datasWrite d), ppm sticks, none, none⟩ := by
    unfold files8
    rw [hd, Res.ok_bind, ht]
    rfl
  have hsp : ∀ g ∈ blockStick, ∀ w ∈ glyphWords g, Spelled w := by
    intro g hg w hw
    simp only [blockStick, List.mem_cons, List.not_mem_nil, or_false] at hg
    rcases hg with rfl | rfl
    · rw [List.mem_singleton.1 hw, show LView.word ⟨bytes "o", bytes "f", 0⟩ = [111] by decide +kernel]
      exact ⟨[111], by decide, fun x hx => by rw [List.mem_singleton.1 hx]; decide, by decide⟩
    · rw [List.mem_singleton.1 hw, show LView.word ⟨bytes "l", bytes "f", 0⟩ = [108] by decide +kernel]
      exact ⟨[108], by decide, fun x hx => by rw [List.mem_singleton.1 hx]; decide, by decide⟩
  have hld : loadImage (ppm sticks) 128 = .ok sticks := by decide +kernel
  have hub := blockStick_ub
  rw [hf, Res.ok_bind] at hub
  obtain ⟨bs, as, _, _, _, ⟨R, cs, _, _, _, hok⟩ | ⟨⟨a, _, _, g, i, j, b, _, _, _, ⟨hne, v, u, hv, hu, he⟩, _⟩, _⟩⟩ :=
    h insertionSort insertionSort (fun _ => []) ⟨some tg, some (datasWrite d), ppm sticks, none, none⟩ blockStick d [] [] tg
      sticks hgood (by decide) hsz hsp (by decide) hd ht rfl rfl rfl ⟨by simp, by simp, by decide, by decide⟩ hld sticks_line
  · rw [hok] at hub
    cases hub
  · match g, j with
    | 0, 0 => exact hne rfl
    | 1, 1 => exact hne rfl
    | 0, 1 => cases hv; cases hu; revert he; decide +kernel
    | 1, 0 => cases hv; cases hu; revert he; decide +kernel
    | g + 2, _ => simp [blockStick] at hv
    | _, j + 2 => simp [blockStick] at hu

end Ppocr.Props

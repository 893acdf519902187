import Verif.Proofs.SortFree6
import Verif.Props.More6

/-! # C108: what `extract_text6` prints and `std::sort` -/

namespace Ppocr.Props
open Ppocr Spec

/-- Full statement of **C108**: for the same files `extract_text6` prints the same, whatever `std::sort` does with equivalent
elements. -/
def C108_statement : Prop := ∀ (S S' : StdSort) (f : ProgFiles), program6 S f = program6 S' f

/-- Some glyph `g` of `gs` is one of the best for the letter. -/
def BestOf (gs : List LGlyph) (a : Image) (g : LGlyph) : Prop := g ∈ gs ∧ Best6 (gs.map LGlyph.img) a g.img

theorem bestAt_of {gs : List LGlyph} {a : Image} {j : Nat} {W : LGlyph → Words} {v : Words} (h : BestAt (gs.map LGlyph.img) a j)
    (hv : (gs.map W)[j]? = some v) : ∃ g, BestOf gs a g ∧ v = W g := by
  obtain ⟨i, hi, hb⟩ := h
  rw [List.getElem?_map] at hi hv
  obtain ⟨g, hg, rfl⟩ := Option.map_eq_some_iff.1 hi
  rw [hg] at hv
  exact ⟨g, ⟨List.mem_of_getElem? hg, hb⟩, (Option.some.inj hv).symm⟩

theorem of_bestOf {gs : List LGlyph} {a : Image} {g : LGlyph} (h : BestOf gs a g) (W : LGlyph → Words) :
    ∃ j, BestAt (gs.map LGlyph.img) a j ∧ (gs.map W)[j]? = some (W g) := by
  obtain ⟨j, hj⟩ := List.getElem?_of_mem h.1
  exact ⟨j, ⟨g.img, by rw [List.getElem?_map, hj]; rfl, h.2⟩, by rw [List.getElem?_map, hj]; rfl⟩

theorem usedWords_eq {g g' : LGlyph} (h : glyphWords g = glyphWords g') : usedWords g = usedWords g' := by
  unfold usedWords uniqueWords
  rw [show g.views.map LView.word = g'.views.map LView.word from h]

theorem headD_eq {v u : Words} (h : v.head? = u.head?) : v.headD [] = u.headD [] := by
  rw [List.headD_eq_head?_getD, List.headD_eq_head?_getD, h]

/-- **C108**, partial: if the best glyphs of each letter have the same words, all three results are the same. Missing: the other
lines, see `C108_false`. -/
theorem C108_settled_partial (S S' : StdSort) (f : ProgFiles) (gs : List LGlyph) (h : Taught6 f gs) (E : List FNode) (hE : loadDict f.dict = .ok E)
    (i : Image) (himg : loadImage f.image 128 = .ok i) (hi : LineImage i)
    (hj : EachLetter i fun a => ¬ Jam6 (gs.map LGlyph.img) (gs.map glyphWords) a)
    (hb : EachLetter i fun a => ∀ g g', BestOf gs a g → BestOf gs a g' → glyphWords g = glyphWords g') : program6 S' f = program6 S f := by
  refine same_of_letters h h rfl rfl hE himg hi hj hj ?_
  intro bs as e hp a ha o o' ho ho'
  refine same_words (by simp) (ho'.mono fun _ _ q => q.toFlagSorted) (ho.mono fun _ _ q => q.toFlagSorted) ?_
  intro j k v u hj hk hv hu
  obtain ⟨g, hg, rfl⟩ := bestAt_of hj hv
  obtain ⟨g', hg', rfl⟩ := bestAt_of hk hu
  exact usedWords_eq (hb bs as e hp a ha g g' hg hg')

/-- On such a line neither `std::sort` nor the order of the glyphs matters. -/
theorem C108_order_partial (S S' : StdSort) (f f' : ProgFiles) (gs gs' : List LGlyph) (h : Taught6 f gs) (h' : Taught6 f' gs')
    (hp : (gs'.map pictured).Perm (gs.map pictured))
    (hfi : f'.image = f.image) (hfd : f'.dict = f.dict) (E : List FNode) (hE : loadDict f.dict = .ok E) (i : Image)
    (himg : loadImage f.image 128 = .ok i) (hi : LineImage i)
    (hj : EachLetter i fun a => ¬ Jam6 (gs.map LGlyph.img) (gs.map glyphWords) a)
    (hb : EachLetter i fun a => ∀ g g', BestOf gs a g → BestOf gs a g' → glyphWords g = glyphWords g') : program6 S' f' = program6 S f := by
  obtain ⟨gs'', hp, e1, e2⟩ := pictured_perm hp
  refine same_of_letters h h' hfi hfd hE himg hi hj ?_ ?_
  · intro bs as e hpic a ha hja
    obtain ⟨idx, m⟩ := perm_moved hp glyphWords
    rw [e1, e2] at hja
    exact hj bs as e hpic a ha (m.jam hja)
  · intro bs as e hpic a ha o o' ho ho'
    obtain ⟨idx, m⟩ := perm_moved hp usedWords
    rw [e1, used_of_words e2] at ho'
    refine same_words (by simp) ((m.readBy ho').mono fun _ _ q => q.toFlagSorted) (ho.mono fun _ _ q => q.toFlagSorted) ?_
    intro j k v u hj hk hv hu
    obtain ⟨g, hg, rfl⟩ := bestAt_of hj hv
    obtain ⟨g', hg', rfl⟩ := bestAt_of hk hu
    exact usedWords_eq (hb bs as e hpic a ha g g' hg hg')

theorem bind_answer {r : Res (List Nat)} {x1 x2 : List Nat} {x : Answer6} (h : r.bind (fun t => .ok ⟨x1, x2, t⟩) = .ok x) :
    x.res1 = x1 ∧ x.res2 = x2 := by
  obtain ⟨t, _, e⟩ := Res.bind_eq_ok.1 h
  cases e
  exact ⟨rfl, rfl⟩

/-- **C108**, partial: if the best glyphs of each letter have the same first word, the first and the second result are the same.
Missing: the text, which depends on the order of the other candidates. -/
theorem C108_results_partial (S S' : StdSort) (f : ProgFiles) (gs : List LGlyph) (h : Taught6 f gs) (E : List FNode) (hE : loadDict f.dict = .ok E)
    (i : Image) (himg : loadImage f.image 128 = .ok i) (hi : LineImage i)
    (hj : EachLetter i fun a => ¬ Jam6 (gs.map LGlyph.img) (gs.map glyphWords) a)
    (hb : EachLetter i fun a => ∀ g g', BestOf gs a g → BestOf gs a g' → (glyphWords g).head? = (glyphWords g').head?)
    (x y : Answer6) (hx : program6 S f = .ok x) (hy : program6 S' f = .ok y) : x.res1 = y.res1 ∧ x.res2 = y.res2 := by
  obtain ⟨bs, as, R, e, hp, hRd, hprog⟩ := h.run S hE himg hi hj
  obtain ⟨bs', as', R', e', hp', hRd', hprog'⟩ := h.run S' hE himg hi hj
  rw [e, Res.ok.injEq] at e'
  subst e'
  have := pictures_unique hp hp'
  subst this
  obtain ⟨x1, x2⟩ := bind_answer (hprog.symm.trans hx)
  obtain ⟨y1, y2⟩ := bind_answer (hprog'.symm.trans hy)
  have key : ∀ a ∈ as, (R a).r1 = (R' a).r1 ∧ (R a).r2 = (R' a).r2 := by
    intro a ha
    refine same_heads (by simp) ((hRd a ha).2.mono fun _ _ q => q.toFlagSorted) ((hRd' a ha).2.mono fun _ _ q => q.toFlagSorted) ?_
    intro j k v u hj hk hv hu
    obtain ⟨g, hg, rfl⟩ := bestAt_of hj hv
    obtain ⟨g', hg', rfl⟩ := bestAt_of hk hu
    exact headD_eq (by rw [usedWords_head, usedWords_head]; exact hb bs as e hp a ha g g' hg hg')
  rw [x1, x2, y1, y2]
  exact ⟨eachSpaced_eq fun a ha => (key a ha).1, eachSpaced_eq fun a ha => (key a ha).2⟩

theorem eachSpaced_inj {f g : Image → List Nat} : ∀ {as : List Image}, (∀ a ∈ as, 32 ∉ f a ∧ 32 ∉ g a) → eachSpaced f as = eachSpaced g as →
    ∀ a ∈ as, f a = g a
  | [], _, _ => by simp
  | a :: as, hn, h => by
    have key : ∀ (u v x y : List Nat), 32 ∉ u → 32 ∉ v → u ++ [32] ++ x = v ++ [32] ++ y → u = v ∧ x = y := by
      intro u
      induction u with
      | nil =>
        intro v x y _ hv e
        cases v with
        | nil => exact ⟨rfl, by simpa using e⟩
        | cons c v => simp only [List.nil_append, List.cons_append, List.cons.injEq] at e; exact absurd e.1 (fun h => hv (by rw [← h]; simp))
      | cons c u ih =>
        intro v x y hu hv e
        cases v with
        | nil => simp only [List.nil_append, List.cons_append, List.cons.injEq] at e; exact absurd e.1 (fun h => hu (by rw [h]; simp))
        | cons c' v =>
          simp only [List.cons_append, List.cons.injEq] at e
          obtain ⟨h1, h2⟩ := ih v x y (fun h => hu (List.mem_cons_of_mem _ h)) (fun h => hv (List.mem_cons_of_mem _ h)) e.2
          exact ⟨by rw [e.1, h1], h2⟩
    unfold eachSpaced at h
    rw [List.flatMap_cons, List.flatMap_cons] at h
    obtain ⟨h1, h2⟩ := key _ _ _ _ (hn a (by simp)).1 (hn a (by simp)).2 h
    intro b hb
    rcases List.mem_cons.1 hb with rfl | hb
    · exact h1
    · exact eachSpaced_inj (fun a ha => hn a (List.mem_cons_of_mem _ ha)) h2 b hb

/-- The first result has no spaces but those between the letters. -/
theorem reads_no_space {gs : List LGlyph} (hg : ∀ g ∈ gs, g.Good) {a : Image} {o : Letter6}
    (h : Reads6 (gs.map LGlyph.img) (gs.map glyphWords) a o) : 32 ∉ o.r1 := by
  rcases h.first with ⟨k, i, v, _, _, hv, hh⟩ | ⟨_, e⟩
  · rw [List.getElem?_map] at hv
    obtain ⟨g, hk, rfl⟩ := Option.map_eq_some_iff.1 hv
    have hm := List.mem_of_mem_head? hh
    obtain ⟨w, hw, e⟩ := List.mem_map.1 hm
    have := ((hg g (List.mem_of_getElem? hk)).views w hw).1.2
    intro h32
    rw [e] at this
    exact absurd (this 32 h32) (by decide)
  · rw [e]; decide

/-- **C108**, what `std::sort` decides: the first result is the same with every `std::sort` exactly if the best glyphs of each letter
have the same first word. -/
theorem C108_exact (S' : StdSort) (f : ProgFiles) (gs : List LGlyph) (h : Taught6 f gs) (hw : ∀ g ∈ gs, ∀ w ∈ glyphWords g, Spelled w)
    (dict : List (List Nat)) (E : List FNode) (hE : loadDict f.dict = .ok E) (hdict : DictOf S' dict E)
    (i : Image) (himg : loadImage f.image 128 = .ok i) (hi : LineImage i)
    (hj : EachLetter i fun a => ¬ Jam6 (gs.map LGlyph.img) (gs.map glyphWords) a) :
    (∀ S, ∃ x, program6 S f = .ok x) ∧
    ((∀ (S T : StdSort) (x y : Answer6), program6 S f = .ok x → program6 T f = .ok y → x.res1 = y.res1) ↔
      EachLetter i fun a => ∀ g g', BestOf gs a g → BestOf gs a g' → (glyphWords g).head? = (glyphWords g').head?) := by
  obtain ⟨d, tg, hd, ht, hfg, hfd⟩ := h.files
  have hok : ∀ S, ∃ x, program6 S f = .ok x := by
    intro S
    obtain ⟨bs, as, e, hpic, _, hres⟩ := C90_program S S' f gs d dict E tg i h.good h.views h.sized hw h.few hd ht hfg hfd hE hdict himg hi
    rcases hres with ⟨R, cs, _, _, _, hprog⟩ | ⟨⟨a, ha, hja⟩, _⟩
    · exact ⟨_, hprog⟩
    · exact absurd hja (hj bs as e hpic a ha)
  refine ⟨hok, ?_, fun hb S T x y hx hy => (C108_results_partial S T f gs h E hE i himg hi hj hb x y hx hy).1⟩
  intro hsame bs as e hp a ha g g' hg hg'
  have pick : ∀ g, BestOf gs a g → ∃ (k : Nat) (x : Answer6) (R : Image → Letter6), program6 (rotatingSort k) f = .ok x ∧ x.res1 = eachSpaced (fun a => (R a).r1) as ∧
      (R a).r1 = (glyphWords g).headD [] ∧ ∀ b ∈ as, 32 ∉ (R b).r1 := by
    intro g hg
    obtain ⟨j, hj1, hj2⟩ := of_bestOf hg usedWords
    obtain ⟨k, hk⟩ := read_best hj1 hj2
    obtain ⟨x, hx⟩ := hok (rotatingSort k)
    obtain ⟨bs', as', R, e', hp', hRd, hprog⟩ := h.run (rotatingSort k) hE himg hi hj
    rw [e, Res.ok.injEq] at e'
    subst e'
    have := pictures_unique hp hp'
    subst this
    refine ⟨k, x, R, hx, (bind_answer (hprog.symm.trans hx)).1, ?_, fun b hb => reads_no_space h.good (hRd b hb).1⟩
    rw [hk _ (hRd a ha).2]
    exact headD_eq (usedWords_head g)
  obtain ⟨k, x, R, hx, ex, er, hn⟩ := pick g hg
  obtain ⟨k', x', R', hx', ex', er', hn'⟩ := pick g' hg'
  have := hsame _ _ x x' hx hx'
  rw [ex, ex'] at this
  have := eachSpaced_inj (fun b hb => ⟨hn b hb, hn' b hb⟩) this a ha
  rw [er, er'] at this
  have hne : ∀ {g}, BestOf gs a g → ∃ w l, glyphWords g = w :: l := by
    intro g hg
    cases hv : g.views with
    | nil => exact absurd hv (h.views g hg.1)
    | cons v l => exact ⟨v.word, l.map LView.word, by unfold glyphWords; rw [hv]; rfl⟩
  obtain ⟨w, l, ew⟩ := hne hg
  obtain ⟨w', l', ew'⟩ := hne hg'
  rw [ew, ew'] at this ⊢
  exact congrArg some this

/-! ### Examples -/

/-- Two blocks, learnt as `o` and `0`. -/
def oh : List LGlyph := [oneWord ⟨⟨3, 3⟩, List.replicate 9 120⟩ "o", oneWord ⟨⟨4, 4⟩, List.replicate 16 120⟩ "0"]

/-- A line of two blocks. -/
def twoBlocks : Image := ⟨⟨10, 3⟩, let r := [120, 120, 120, 45, 45, 120, 120, 120, 45, 45]; r ++ r ++ r⟩

/-- The two look alike: it is left to `std::sort` which one is printed. -/
theorem C108_oh : (do program6 insertionSort (← files8 oh twoBlocks)) = .ok ⟨bytes "0 0 ", bytes "0 0 ", bytes "00"⟩ ∧
    (do program6 (rotatingSort 1) (← files8 oh twoBlocks)) = .ok ⟨bytes "o o ", bytes "o o ", bytes "oo"⟩ := by
  constructor <;> decide +kernel

theorem C108_false : ¬ C108_statement := by
  intro h
  obtain ⟨h1, h2⟩ := C108_oh
  obtain ⟨f, e, h1⟩ := Res.bind_eq_ok.1 h1
  rw [e, Res.ok_bind, ← h insertionSort, h1] at h2
  exact absurd (congrArg (fun r => match r with | Res.ok a => Answer6.res1 a | _ => []) h2) (by decide +kernel)

/-- With one word for both there is nothing to decide. -/
example : let gs := [oneWord ⟨⟨3, 3⟩, List.replicate 9 120⟩ "o", oneWord ⟨⟨4, 4⟩, List.replicate 16 120⟩ "o"]
    (do program6 insertionSort (← files8 gs twoBlocks)) = .ok ⟨bytes "o o ", bytes "o o ", bytes "oo"⟩ ∧
    (do program6 (rotatingSort 1) (← files8 gs twoBlocks)) = .ok ⟨bytes "o o ", bytes "o o ", bytes "oo"⟩ := by
  constructor <;> decide +kernel

/-- The same first word, but other words: the candidates come in another order, and without a dictionary the text is the same. -/
example : let gs : List LGlyph := [⟨⟨⟨3, 3⟩, List.replicate 9 120⟩, [⟨bytes "o", bytes "f", 0⟩, ⟨bytes "0", bytes "f", 0⟩]⟩,
      ⟨⟨⟨4, 4⟩, List.replicate 16 120⟩, [⟨bytes "o", bytes "f", 0⟩, ⟨bytes "Q", bytes "f", 0⟩]⟩]
    (do program6 insertionSort (← files8 gs twoBlocks)) = .ok ⟨bytes "o o ", bytes "o o ", bytes "oo"⟩ ∧
    (do program6 (rotatingSort 1) (← files8 gs twoBlocks)) = .ok ⟨bytes "o o ", bytes "o o ", bytes "oo"⟩ := by
  constructor <;> decide +kernel

end Ppocr.Props

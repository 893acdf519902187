import Verif.Props.AnyGlyphs
import Verif.Props.WordLines
import Verif.Proofs.AnyInfos

/-! # Any word (C49) and any table of words (C115) -/

namespace Ppocr.Props
open Ppocr Spec

/-! ## C49: when the search leaves the memory -/

/-- **C49**, exactly: the search for `s` leaves the buffer exactly when all words before some word are less than `s` and behind the size of
that word there are less bytes than `s` has; otherwise the result is the place of the first stored word that begins with `s`, or
`no_index` if there is none. For this no stored word of 4, 8, … bytes may be a proper prefix of `s`. -/
theorem C49_exact_partial (wm : StrMap) (h : WordsOk wm) (s : List Nat) (hs : ∀ c ∈ s, c ≠ 0)
    (h4 : ∀ w ∈ wm.map Prod.fst, w.length % 4 = 0 → w <+: s → s = w) :
    ∃ G, finishGlyphs [] wm = .ok G ∧ (Overruns (wm.map Prod.fst) s → wordIndexOf G s = .ub) ∧
      (¬ Overruns (wm.map Prod.fst) s →
        wordIndexOf G s = .ok (match (wm.map Prod.fst).find? (fun w => decide (s <+: w)) with
          | none => noIndex
          | some w => place (wm.map Prod.fst) w)) := by
  obtain ⟨b, e, hb⟩ := finishGlyphs_ok h.toMapOk h.size h.last [] (by simp)
  refine ⟨_, e, ?_⟩
  have := wordIndexLoop_exact (s := s) hs (wm.map Prod.fst) [] b [] 0 (((wm.map Prod.fst).map room).sum + 1) rfl hb
    (by have := h.size; omega) (by have := length_le_room (wm.map Prod.fst); omega)
    (by
      intro w hw hw4
      by_cases hp : w <+: s
      · exact .inr (h4 w hw hw4 hp)
      · exact .inl hp)
    h.word_size
  rw [List.nil_append, Nat.zero_add] at this
  obtain ⟨k1, k2⟩ := searchRes_eq (s := s) 0 h.sorted
  rw [searchFrom_eq _ _ h.sorted.nodup] at k2
  simp only [Nat.zero_add] at k2
  exact ⟨fun ho => this.trans (k1 ho), fun ho => this.trans (k2 ho)⟩

/-- `bbbbb` is behind `ab`, and there are only four bytes; `aaaaa` is as long, and this is undefined too, since the first word is already
without room; among two words it is found to be less than the second. -/
example : Overruns [[97, 98]] [98, 98, 98, 98, 98] ∧ Overruns [[97, 98]] [97, 97, 97, 97, 97] ∧ ¬ Overruns [[97, 98], [98]] [97, 97, 97, 97, 97] := by
  refine ⟨⟨[], [97, 98], [], rfl, by decide, by simp⟩, ⟨[], [97, 98], [], rfl, by decide, by simp⟩, ?_⟩
  rintro ⟨pre, w, post, h, h1, h2⟩
  cases pre with
  | nil =>
    simp only [List.nil_append, List.cons.injEq] at h
    obtain ⟨rfl, rfl⟩ := h
    revert h1
    decide
  | cons x pre =>
    simp only [List.cons_append, List.cons.injEq] at h
    have := h2 x (by simp)
    rw [← h.1] at this
    revert this
    decide

/-! ## C115 -/

section
variable (P : Type) [ScoreDbl P]

/-- **C115**, full statement: a line that is read without a table of words is read with any text that the program takes as one, with as many
letters. -/
def C115_statement (S : StdSort) : Prop :=
  ∀ (f : ProgFiles) (tt : List Nat) (ans : Answer), f.infos = none → program P S f = .ok ans → 0 ∉ tt →
    program P S { f with infos := some (some tt) } ≠ .throw →
    ∃ ans', program P S { f with infos := some (some tt) } = .ok ans' ∧ ans'.count = ans.count

end

/-- The two blocks that were learnt as `a` and `!`, read with a table of words. -/
def anyInfosDemo (tt : Option TextFile) : Res Answer :=
  let g := writeGlyphs 128 [⟨ppm (spread [(0, 2), (1, 1)]), some (bytes "a !"), bytes "font"⟩]
  do
    let r ← writeDatas (some g.out)
    program Frac insertionSort ⟨some g.out, some r.2, ppm (spread [(0, 2), (1, 2), (1, 1)]), tt, none⟩

/-- A word of five bytes that is greater than all words of the glyphs: the search leaves the memory. A word of nine bytes is passed over. -/
theorem C115_overrun : anyInfosDemo none = .ok ⟨bytes "aa!", 0, 3⟩ ∧
    anyInfosDemo (some (some (bytes "bbbb 1 2 3 4\n"))) = .ok ⟨bytes "aa!", 0, 3⟩ ∧
    anyInfosDemo (some (some (bytes "bbbbb 1 2 3 4\n"))) = .ub ∧
    anyInfosDemo (some (some (bytes "bbbbbbbbb 1 2 3 4\n"))) = .ok ⟨bytes "aa!", 0, 3⟩ := by
  refine ⟨by decide +kernel, by decide +kernel, by decide +kernel, by decide +kernel⟩

theorem C115_false : ¬ C115_statement Frac insertionSort := by
  intro h
  obtain ⟨h1, _, h2, _⟩ := C115_overrun
  unfold anyInfosDemo at h1 h2
  simp only [] at h1 h2
  obtain ⟨r, hr, h1⟩ := Res.bind_eq_ok.1 h1
  rw [hr, Res.ok_bind] at h2
  obtain ⟨ans', e', _⟩ := h ⟨_, some r.2, _, none, none⟩ (bytes "bbbbb 1 2 3 4\n") _ rfl h1 (by decide +kernel) (fun e => by
    have := h2.symm.trans e
    cases this)
  have := h2.symm.trans e'
  cases this

/-! ### What is true -/

theorem hasEntry_sub {t : List Nat} {e : Entry} {r : List Nat} (h : HasEntry t e r) : (∀ c ∈ e.word, c ∈ t) ∧ ∀ c ∈ r, c ∈ t := by
  obtain ⟨r0, r1, r2, r3, ⟨p, rfl, _⟩, ⟨p0, s0, d0, rfl, _⟩, ⟨p1, s1, d1, rfl, _⟩, ⟨p2, s2, d2, rfl, _⟩, ⟨p3, s3, d3, rfl, _⟩⟩ := h
  constructor <;> intro c hc <;> simp [hc]

theorem entries_sub : ∀ {t : List Nat} {es : List Entry}, Entries t es → ∀ e ∈ es, ∀ c ∈ e.word, c ∈ t
  | _, _, .stop _ _ => by simp
  | _, _, .more t r e es h hr => by
    intro e' he c hc
    obtain ⟨h1, h2⟩ := hasEntry_sub h
    rcases List.mem_cons.1 he with rfl | he
    · exact h1 c hc
    · exact h2 c (entries_sub hr e' he c hc)

/-- The searches for the words of a table, one after the other. -/
theorem infosLoop_any {g : RGlyphs} {ws : List (List Nat)} : ∀ {ls : List WWordLines},
    (∀ p ∈ ls, (Overruns ws p.str → wordIndexOf g p.str = .ub) ∧ (¬ Overruns ws p.str → ∃ i, wordIndexOf g p.str = .ok i)) →
    ((∃ p ∈ ls, Overruns ws p.str) → infosLoop g ls = .ub) ∧ ((¬ ∃ p ∈ ls, Overruns ws p.str) → ∃ l, infosLoop g ls = .ok l)
  | [], _ => ⟨by simp, fun _ => ⟨[], rfl⟩⟩
  | p :: ls, h => by
    obtain ⟨h1, h2⟩ := h p (by simp)
    obtain ⟨k1, k2⟩ := infosLoop_any (ls := ls) fun q hq => h q (by simp [hq])
    rw [infosLoop]
    by_cases ho : Overruns ws p.str
    · rw [h1 ho]
      exact ⟨fun _ => rfl, fun hn => absurd ⟨p, by simp, ho⟩ hn⟩
    · obtain ⟨i, hi⟩ := h2 ho
      rw [hi, Res.ok_bind]
      constructor
      · rintro ⟨q, hq, hov⟩
        rcases List.mem_cons.1 hq with rfl | hq
        · exact absurd hov ho
        · rw [k1 ⟨q, hq, hov⟩]
          rfl
      · intro hn
        obtain ⟨l, hl⟩ := k2 fun ⟨q, hq, hov⟩ => hn ⟨q, by simp [hq], hov⟩
        rw [hl]
        exact ⟨_, rfl⟩

/-- **C115**: what is made of any text without NUL as the table of words, with the glyphs of any text that is taken, if no word has 4, 8, …
bytes. With `ws` the words of the glyphs in the order of their bytes: either the text is refused; or one of the entries has a word of at
most 8 bytes whose search leaves the memory; or the table has, for each entry with a word of at most 8 bytes that some word of the glyphs
begins with, the positions of the entry for the first such word, and nothing else. -/
theorem C115_load (S : StdSort) (t tt : List Nat) (g : RGlyphs) (es : List Entry) (ht : t.length < W32) (h : loadGlyphs (some t) = .ok g)
    (ho : OddSizes g) (h0 : 0 ∉ tt) (he : Entries tt es) :
    ∃ ws : List (List Nat), ws.Pairwise (fun a b => wordLt a b = true) ∧
      (∀ w, w ∈ ws ↔ ∃ vs ∈ g.views, ∃ v ∈ vs, getWord g.buf v.word = .ok w) ∧
      (loadInfos S g (some (some tt)) = .throw ∨
       ((∃ e ∈ es, e.word.length ≤ 8 ∧ Overruns ws e.word) ∧ loadInfos S g (some (some tt)) = .ub) ∨
       ((∀ e ∈ es, e.word.length ≤ 8 → ¬ Overruns ws e.word) ∧ ∃ infos, loadInfos S g (some (some tt)) = .ok infos ∧ InfosSorted infos ∧
         ∀ x, x ∈ infos ↔ ∃ e ∈ es, e.word.length ≤ 8 ∧ ∃ w, ws.find? (fun w => decide (e.word <+: w)) = some w ∧
           x = ⟨place ws w, ⟨e.ascent % 8, e.cap % 8, e.mean % 8, e.base % 8⟩⟩)) := by
  obtain ⟨ws, hL⟩ := loadGlyphs_loaded ht h
  refine ⟨ws, hL.sorted, hL.mem_iff ht, ?_⟩
  have hodd : ∀ w ∈ ws, w.length % 4 ≠ 0 := by
    intro w hw
    obtain ⟨vs, hvs, v, hv, e⟩ := hL.used w hw
    exact ho vs hvs v hv _ (by rw [e]; exact (hL.getWord ht hw).2)
  have hsz := hL.size
  have hsearch : ∀ s : List Nat, (∀ c ∈ s, c ≠ 0) → wordIndexOf g s = searchRes s ws 0 := by
    intro s hs
    have := wordIndexLoop_exact (s := s) hs ws [] g.buf g.views 0 ((ws.map room).sum + 1) rfl hL.blocks (by omega)
      (by have := length_le_room ws; omega) (fun w hw h4 => absurd h4 (hodd w hw)) (by
        intro w hw
        have := (hL.words w hw).2.1.length_le
        omega)
    rw [List.nil_append, Nat.zero_add, ← hL.bufSz] at this
    exact this
  have hnul : ∀ e ∈ es, ∀ c ∈ e.word, c ≠ 0 := by
    rintro e he' c hc rfl
    exact h0 (entries_sub he e he' _ hc)
  have hkeep : ∀ p, p ∈ keep es ↔ ∃ e ∈ es, e.word.length ≤ 8 ∧ p = ⟨e.word, e.ascent % 8, e.cap % 8, e.mean % 8, e.base % 8⟩ := by
    intro p
    unfold keep
    simp only [List.mem_map, List.mem_filter, decide_eq_true_eq]
    constructor
    · rintro ⟨e, ⟨h1, h2⟩, rfl⟩
      exact ⟨e, h1, h2, rfl⟩
    · rintro ⟨e, h1, h2, rfl⟩
      exact ⟨e, ⟨h1, h2⟩, rfl⟩
  have hres : ∀ s : List Nat, (∀ c ∈ s, c ≠ 0) → (Overruns ws s → wordIndexOf g s = .ub) ∧
      (¬ Overruns ws s → wordIndexOf g s = .ok (match ws.find? (fun w => decide (s <+: w)) with
          | none => noIndex
          | some w => place ws w)) := by
    intro s hs
    obtain ⟨k1, k2⟩ := searchRes_eq (s := s) 0 hL.sorted
    rw [searchFrom_eq _ _ hL.sorted.nodup] at k2
    simp only [Nat.zero_add] at k2
    rw [hsearch s hs]
    exact ⟨k1, k2⟩
  have hex : (∃ p ∈ keep es, Overruns ws p.str) ↔ ∃ e ∈ es, e.word.length ≤ 8 ∧ Overruns ws e.word := by
    constructor
    · rintro ⟨p, hp, hov⟩
      obtain ⟨e, h1, h2, rfl⟩ := (hkeep p).1 hp
      exact ⟨e, h1, h2, hov⟩
    · rintro ⟨e, h1, h2, hov⟩
      exact ⟨_, (hkeep _).2 ⟨e, h1, h2, rfl⟩, hov⟩
  obtain ⟨l1, l2⟩ := infosLoop_any (g := g) (ws := ws) (ls := keep es) (by
    intro p hp
    obtain ⟨e, h1, _, rfl⟩ := (hkeep p).1 hp
    obtain ⟨k1, k2⟩ := hres e.word (hnul e h1)
    exact ⟨k1, fun hn => ⟨_, k2 hn⟩⟩)
  obtain ⟨s, es1, _⟩ := (C57_reader tt []).2 es he
  rw [List.nil_append] at es1
  have hload : loadInfos S g (some (some tt)) = (do checkEof s; wordsInfos S g (keep es)) := by
    unfold loadInfos openText
    simp only [Res.ok_bind]
    rw [es1, Res.ok_bind]
  rw [hload]
  unfold checkEof
  by_cases hs : s.eof = true
  · rw [if_pos hs, Res.ok_bind]
    right
    by_cases hov : ∃ e ∈ es, e.word.length ≤ 8 ∧ Overruns ws e.word
    · refine .inl ⟨hov, ?_⟩
      unfold wordsInfos
      rw [l1 (hex.2 hov)]
      rfl
    · have hno : ¬ ∃ p ∈ keep es, Overruns ws p.str := fun hh => hov (hex.1 hh)
      obtain ⟨l, hl⟩ := l2 hno
      have hw : wordsInfos S g (keep es) = .ok (S.sort (fun a b => decide (a.word < b.word)) l) := by
        unfold wordsInfos
        rw [hl, Res.ok_bind, Res.pure_eq]
      obtain ⟨hsort, hm⟩ := wordsInfos_sorted hw
      refine .inr ⟨fun e h1 h2 h3 => hov ⟨e, h1, h2, h3⟩, _, hw, hsort, ?_⟩
      intro x
      rw [hm x]
      constructor
      · rintro ⟨hn, p, hp, hi, hx⟩
        obtain ⟨e, h1, h2, rfl⟩ := (hkeep p).1 hp
        have hr := (hres e.word (hnul e h1)).2 fun hh => hov ⟨e, h1, h2, hh⟩
        rw [show wordIndexOf g e.word = _ from hi] at hr
        cases hf : ws.find? (fun w => decide (e.word <+: w)) with
        | none =>
          rw [hf, Res.ok.injEq] at hr
          exact absurd hr hn
        | some w =>
          rw [hf, Res.ok.injEq] at hr
          refine ⟨e, h1, h2, w, hf, ?_⟩
          cases x
          simp only [] at hr hx
          rw [hr, hx]
      · rintro ⟨e, h1, h2, w, hf, rfl⟩
        have hr := (hres e.word (hnul e h1)).2 fun hh => hov ⟨e, h1, h2, hh⟩
        rw [hf] at hr
        refine ⟨?_, _, (hkeep _).2 ⟨e, h1, h2, rfl⟩, hr, rfl⟩
        have := place_lt (List.mem_of_find?_eq_some hf)
        show place ws w ≠ noIndex
        unfold noIndex
        omega
  · rw [if_neg hs]
    exact .inl rfl

section
variable {P : Type} [ScoreDbl P]

/-- **C115**: what the program does with any glyph file, features file, dictionary and table of words: as C114 says, if the search for no word
of the table leaves the memory; the only other outcome is that of C62. -/
theorem C115_program_partial (S : StdSort) (f : ProgFiles) (t tt : List Nat) (es : List Entry) (d : Datas) (g : RGlyphs)
    (E : List FNode) (i : Image) (hf : f.glyphs = some t) (hft : f.infos = some (some tt)) (ht : t.length < W32) (hu : Utf8 t)
    (h0 : 0 ∉ tt) (he : Entries tt es) (h1 : loadDatas f.datas = .ok d)
    (h2 : loadGlyphs (some t) = .ok g) (h4 : loadDict f.dict = .ok E)
    (h5 : loadImage f.image 128 = .ok i) (hsize : g.views.length = d.size) (hwhole : Whole d) (hnw : NoWrap d) (hviews : [] ∉ g.views)
    (hfew : (g.views.map List.length).sum < W32) (ho : OddSizes g) (hin : StaysInside E)
    (hi : LineImage i) (hdiv : ∀ bs as, segment i = .ok bs → Pictures i bs as → ∀ a ∈ as, Divides d a) :
    ∃ ws : List (List Nat), ws.Pairwise (fun a b => wordLt a b = true) ∧
      (∀ w, w ∈ ws ↔ ∃ vs ∈ g.views, ∃ v ∈ vs, getWord g.buf v.word = .ok w) ∧
      (program P S f = .throw ∨
       ((∃ e ∈ es, e.word.length ≤ 8 ∧ Overruns ws e.word) ∧ program P S f = .ub) ∨
       ((∀ e ∈ es, e.word.length ≤ 8 → ¬ Overruns ws e.word) ∧
        ∃ infos bw bs, loadInfos S g (some (some tt)) = .ok infos ∧ checkTables g.views d = .ok bw ∧ segment i = .ok bs ∧
          (¬ FirstHeld (setupOf S g.views d bw : Setup P) infos i → program P S f = .ub) ∧
          (FirstHeld (setupOf S g.views d bw : Setup P) infos i →
            ∃ (ds : List (List Nat)) (un : Nat) (lead : List (List (List Nat))) (segs : List (List (List (List Nat)))),
              (lead ++ segs.flatten).length = bs.length ∧ (∀ l ∈ lead ++ segs.flatten, ∀ w ∈ l, w ≠ [] ∧ encAll w ∈ ws) ∧
              un = (segs.flatten.filter (· = [])).length ∧
              program P S f = .ok ⟨encAll (lead.flatMap firstOf ++ [32].intercalate (segs.map (segText ds))), un, bs.length⟩))) := by
  obtain ⟨ws, k1, k2, k3⟩ := C115_load S t tt g es ht h2 ho h0 he
  refine ⟨ws, k1, k2, ?_⟩
  have hp : ∀ r, (r = .throw ∨ r = .ub) → loadInfos S g (some (some tt)) = r →
      program P S f = match r with | .throw => .throw | _ => .ub := by
    intro r hr hl
    unfold program
    rw [h4, Res.ok_bind, h1, Res.ok_bind, hf, h2, Res.ok_bind, if_neg (by rw [hsize]; simp), hft, hl]
    rcases hr with rfl | rfl <;> rfl
  rcases k3 with k3 | ⟨k3, k4⟩ | ⟨k3, infos, k4, _, _⟩
  · exact .inl (hp _ (.inl rfl) k3)
  · exact .inr (.inl ⟨k3, hp _ (.inr rfl) k4⟩)
  · obtain ⟨W, hk, _⟩ := C114_known t g ht hu h2 ho
    obtain ⟨bw, bs, a1, a2, a3, a4⟩ := C113_program_partial (P := P) S f d g W infos E i h1 (by rw [hf]; exact h2) (by rw [hft]; exact k4)
      h4 h5 hsize hwhole hnw hviews hfew hk hin hi hdiv
    refine .inr (.inr ⟨k3, infos, bw, bs, k4, a1, a2, a3, fun hh => ?_⟩)
    obtain ⟨ds, un, lead, segs, b1, b2, b3, b4⟩ := a4 hh
    refine ⟨ds, un, lead, segs, b1, ?_, b3, b4⟩
    intro l hl w hw
    obtain ⟨vs, hvs, v, hv, rfl⟩ := b2 l hl w hw
    have := hk vs hvs v hv
    exact ⟨this.ne, (k2 _).2 ⟨vs, hvs, v, hv, getWord_of this.holds this.small⟩⟩

end

/-- A table with entries for `a`, for `zz`, which no word begins with, and for `!`; a table that ends inside an entry; one that is not a table. -/
example : anyInfosDemo (some (some (bytes "a 1 2 3 4\nzz 0 0 0 0\n ! 7 7 7 -1"))) = .ok ⟨bytes "aa!", 0, 3⟩ ∧
    anyInfosDemo (some (some (bytes "a 1 2 3\n"))) = .ok ⟨bytes "aa!", 0, 3⟩ ∧
    anyInfosDemo (some (some (bytes "a 1 2 3 x\n"))) = .throw := by
  refine ⟨by decide +kernel, by decide +kernel, by decide +kernel⟩

end Ppocr.Props

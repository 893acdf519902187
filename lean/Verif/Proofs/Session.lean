import Verif.Spec.Session
import Verif.Proofs.Command
import Verif.Props.Program

/-! # Helper lemmas: what `ocr2_extract_text` prints -/

namespace Ppocr
open Spec Props

theorem act_ext {α : Type} {a b : Act α} (h1 : a.out = b.out) (h2 : a.res = b.res) : a = b := by
  cases a; cases b; simp_all

theorem mute_ok_bind {α β : Type} (x : α) (f : α → Act β) : (mute (.ok x) >>= f) = f x := by
  show Act.bind _ _ = _
  simp [Act.bind, mute]

theorem mute_throw_bind {α β : Type} (f : α → Act β) : (mute (.throw : Res α) >>= f) = mute .throw := rfl

theorem say_bind {β : Type} (t : List Nat) (f : Unit → Act β) : (say t >>= f) = ⟨t ++ (f ()).out, (f ()).res⟩ := rfl

theorem act_pure {α : Type} (x : α) : (pure x : Act α) = ⟨[], .ok x⟩ := rfl

theorem act_bind_ok {α β : Type} {a : Act α} {x : α} (h : a.res = .ok x) (f : α → Act β) :
    (a >>= f) = ⟨a.out ++ (f x).out, (f x).res⟩ := by
  show Act.bind _ _ = _
  simp [Act.bind, h]

theorem firstSeen_snoc (as : List Image) (a : Image) :
    firstSeen (as ++ [a]) = firstSeen as ++ if a ∈ as then [] else [a] := by
  unfold firstSeen
  rw [List.length_append, List.length_singleton, List.range_succ, List.flatMap_append]
  congr 1
  · rw [List.flatMap_def, List.flatMap_def]
    congr 1
    apply List.map_congr_left
    intro k hk
    have hk := List.mem_range.1 hk
    rw [List.getElem?_append_left hk, List.take_append_of_le_length (by omega)]
  · simp

theorem firstSeen_mem {as : List Image} {a : Image} : a ∈ firstSeen as ↔ a ∈ as := by
  constructor
  · intro h
    obtain ⟨k, hk, h⟩ := List.mem_flatMap.1 h
    have hk := List.mem_range.1 hk
    rw [List.getElem?_eq_getElem hk] at h
    simp only at h
    split at h
    · simp at h
    · simp only [List.mem_singleton] at h
      rw [h]; exact List.getElem_mem hk
  · have key : ∀ (n : Nat) (as : List Image), as.length = n → a ∈ as → a ∈ firstSeen as := by
      intro n
      induction n with
      | zero => intro as h1 h2; rw [List.length_eq_zero_iff.1 h1] at h2; simp at h2
      | succ n ih =>
        intro as h1 h2
        obtain ⟨bs, b, rfl⟩ : ∃ bs b, as = bs ++ [b] :=
          ⟨as.dropLast, as.getLast (by intro e; simp [e] at h1), (List.dropLast_concat_getLast _).symm⟩
        rw [firstSeen_snoc, List.mem_append]
        by_cases hm : a ∈ bs
        · exact .inl (ih bs (by simpa using h1) hm)
        · rcases List.mem_append.1 h2 with h | h
          · exact absurd h hm
          · simp only [List.mem_singleton] at h
            subst h
            right
            rw [if_neg hm]
            simp
    exact key _ as rfl

theorem firstSeen_nodup (as : List Image) : (firstSeen as).Nodup := by
  have key : ∀ (n : Nat) (as : List Image), as.length = n → (firstSeen as).Nodup := by
    intro n
    induction n with
    | zero => intro as h1; rw [List.length_eq_zero_iff.1 h1]; simp [firstSeen]
    | succ n ih =>
      intro as h1
      obtain ⟨bs, b, rfl⟩ : ∃ bs b, as = bs ++ [b] :=
        ⟨as.dropLast, as.getLast (by intro e; simp [e] at h1), (List.dropLast_concat_getLast _).symm⟩
      rw [firstSeen_snoc, List.nodup_append]
      refine ⟨ih bs (by simpa using h1), by split <;> simp, ?_⟩
      intro x hx y hy e
      subst e
      split at hy
      · simp at hy
      · rename_i hb
        simp only [List.mem_singleton] at hy
        subst hy
        exact hb (firstSeen_mem.1 hx)
  exact key _ as rfl

section
variable {P : Type} [Dbl P]

theorem showWords_ok (g : RGlyphs) (W : Nat → List Nat) (vs : List View)
    (h : ∀ v ∈ vs, getWord g.buf v.word = .ok (W v.word)) :
    showWords g vs = ⟨vs.flatMap fun v => W v.word ++ [32], .ok ()⟩ := by
  induction vs with
  | nil => rfl
  | cons v vs ih =>
    unfold showWords
    rw [h v (by simp), mute_ok_bind, say_bind, ih fun v hv => h v (by simp [hv])]
    simp

theorem lineInv_mem {s : Setup P} {l : Line P} {as keys : List Image} (inv : LineInv s l as keys) {a : Image} :
    a ∈ keys ↔ a ∈ as := by
  constructor
  · exact inv.seen a
  · intro h
    obtain ⟨k, hk, rfl⟩ := List.mem_iff_getElem.1 h
    have hkr : k < l.refs.length := by rw [inv.refsLen]; exact hk
    obtain ⟨h1, h2⟩ := inv.refs k _ (List.getElem?_eq_getElem hkr)
    rw [List.getElem?_eq_getElem hk] at h2
    exact List.mem_of_getElem? h2

theorem lookLetterOut_ok {s : Setup P} {g : RGlyphs} {W : Nat → List Nat} {l : Line P} {as keys : List Image} {a : Image}
    (inv : LineInv s l as keys) (hc : ∃ cells, l.ctx.Inv l.heap a cells) (hr : Readable s g a)
    (hf : imageShow a = .ok (framed a))
    (hW : ∀ vs, candidates s a = .ok vs → ∀ v ∈ vs, getWord g.buf v.word = .ok (W v.word)) :
    lookLetterOut s g l = ⟨if a ∈ as then [] else described s W a, lookLetter s g l⟩ := by
  obtain ⟨cells, hc⟩ := hc
  have hfull : ∀ p ∈ l.cache, p.1.Full := fun p hp =>
    inv.full _ (List.mem_of_getElem? ((inv.mem p.1 p.2).1 hp))
  unfold lookLetterOut lookLetter
  rw [(inv_img hc).2, Res.ok_bind, mute_ok_bind]
  rcases cacheFind_ok a hr.wf.full l.cache hfull inv.sorted with ⟨r, e, hm⟩ | ⟨e, hm⟩
  · rw [e, Res.ok_bind, mute_ok_bind]
    have hk : a ∈ as := (lineInv_mem inv).1 (List.mem_of_getElem? ((inv.mem a r).1 hm))
    rw [if_pos hk]
    rfl
  · rw [e, Res.ok_bind, mute_ok_bind]
    simp only []
    have hnew : a ∉ as := by
      intro h
      obtain ⟨q, hq, hq2⟩ := List.mem_iff_getElem.1 ((lineInv_mem inv).2 h)
      exact hm (a, q) ((inv.mem a q).2 (by rw [List.getElem?_eq_getElem hq, hq2])) rfl
    rw [if_neg hnew]
    unfold newLetterOut newLetter
    obtain ⟨h', c', l', e1, inv', v1, v2⟩ := doImg90_views hc
    rw [(inv_img hc).2, mute_ok_bind, hf, mute_ok_bind, say_bind, e1, Res.ok_bind, mute_ok_bind]
    simp only []
    rw [v1, Res.ok_bind, v2, Res.ok_bind, mute_ok_bind, mute_ok_bind]
    obtain ⟨o, ho⟩ := hr.compute _ (rotate90_turned hr.wf) l.tmp
    rw [ho, Res.ok_bind, C04_clone a hr.wf hr.w hr.h, Res.ok_bind, mute_ok_bind, mute_ok_bind]
    obtain ⟨m', h1, h2, h3⟩ := cacheEmplace_ok a hr.wf.full l.st.length l.cache hfull inv.sorted hm
    rw [h1, Res.ok_bind, mute_ok_bind]
    simp only []
    have hcand : candidates s a = .ok o.views := by
      obtain ⟨o', f1, f2⟩ := computeImage_tmp s _ _ _ ho
      unfold candidates
      rw [rotate90_turned hr.wf, Res.ok_bind, f1, Res.ok_bind, f2]
      rfl
    rw [printWords_ok g _ (hr.words _ hcand), Res.ok_bind, act_bind_ok (x := ()) (by rw [showWords_ok g W _ (hW _ hcand)]),
      showWords_ok g W _ (hW _ hcand), say_bind]
    simp only [act_pure, Res.pure_eq, described, hcand, List.append_nil, List.append_assoc]

theorem letterStepOut_ok {s : Setup P} {g : RGlyphs} {W : Nat → List Nat} {i : Image} (wf : i.WF)
    {l : Line P} {as keys : List Image} {a : Image} {b : Box} {x : Nat} (inv : LineInv s l as keys) (hw : 0 < b.w)
    (hh : 0 < b.h) (hx : b.x + b.w ≤ i.bounds.w)
    (hy : b.y + b.h ≤ i.bounds.h) (hs : i.section b.x b.y b.bounds = .ok a) (hr : Readable s g a)
    (hf : imageShow a = .ok (framed a))
    (hW : ∀ vs, candidates s a = .ok vs → ∀ v ∈ vs, getWord g.buf v.word = .ok (W v.word)) {l' : Line P}
    (hl : letterStep s g i x b l = .ok l') :
    letterStepOut s g i x b l = ⟨if a ∈ as then [] else described s W a, .ok l'⟩ := by
  obtain ⟨j, cells, hc⟩ := inv.ctx
  obtain ⟨a', e1, wa, hb, hm⟩ := C55_section i wf b.x b.y b.bounds hw hh
    (show b.w + b.x ≤ _ by omega) (show b.h + b.y ≤ _ by omega)
  rw [hs] at e1
  cases e1
  have hd := doImg_ok hc wa hr.small hm
  rw [hb] at hd
  obtain ⟨h', c', cells', e2, inv2, _⟩ := hd
  unfold letterStep at hl
  rw [e2, Res.ok_bind] at hl
  simp only [] at hl
  obtain ⟨l1, e3, hl⟩ := Res.bind_eq_ok.1 hl
  cases hl
  unfold letterStepOut
  rw [e2, mute_ok_bind]
  simp only []
  have := lookLetterOut_ok (s := s) (g := g) (W := W)
    (l := { l with
      heap := h', ctx := c', nth := uadd l.nth 1
      spaces := if uadd x 4 < b.x then l.spaces ++ [l.nth] else l.spaces }) (as := as) (keys := keys) (a := a)
    ⟨⟨a, cells', inv2⟩, inv.keysLen, inv.nodup, inv.full, inv.sorted, inv.mem, inv.refsLen, inv.refs, inv.seen, inv.views⟩
    ⟨cells', inv2⟩ hr hf hW
  rw [this, e3]
  rw [act_bind_ok rfl]
  simp [act_pure]

theorem lineLoopOut_ok {s : Setup P} {g : RGlyphs} {W : Nat → List Nat} {i : Image} (wf : i.WF) (hi : i.bounds.w + 4 < W32) :
    ∀ (fuel x : Nat) (bs : List Box) (as' : List Image) (l : Line P) (as keys : List Image),
      segmentFrom i fuel x = .ok bs →
      (∀ b ∈ bs, 0 < b.w ∧ 0 < b.h ∧ b.x + b.w ≤ i.bounds.w ∧ b.y + b.h ≤ i.bounds.h) →
      Pictures i bs as' → (∀ a ∈ as', Readable s g a ∧ imageShow a = .ok (framed a) ∧
        ∀ vs, candidates s a = .ok vs → ∀ v ∈ vs, getWord g.buf v.word = .ok (W v.word)) →
      LineInv s l as keys → x = endBefore l.boxes l.boxes.length → x ≤ i.bounds.w → l.nth = l.boxes.length →
      l.nth + bs.length < W32 → l.spaces = gaps l.boxes →
      ∃ T l', lineLoop s g i fuel x l = .ok l' ∧ lineLoopOut s g i fuel x l = ⟨T, .ok l'⟩ ∧
        (firstSeen as).flatMap (described s W) ++ T = (firstSeen (as ++ as')).flatMap (described s W) := by
  intro fuel
  induction fuel with
  | zero => intro x bs as' l as keys h; simp [segmentFrom] at h
  | succ fuel ih =>
    intro x bs as' l as keys h hb hp hr inv hx hxw hn hnl hg
    unfold segmentFrom at h
    obtain ⟨b, h1, h⟩ := Res.bind_eq_ok.1 h
    unfold lineLoop lineLoopOut
    rw [h1, Res.ok_bind, mute_ok_bind]
    by_cases ht : b.truthy = true
    · rw [if_pos ht] at h ⊢
      rw [if_pos ht]
      obtain ⟨r, h2, h⟩ := Res.bind_eq_ok.1 h
      cases h
      cases as' with
      | nil => exact absurd hp (by simp [Pictures])
      | cons a as' =>
        obtain ⟨hp1, hp2⟩ := hp
        obtain ⟨b1, b2, b3, b4⟩ := hb b (by simp)
        have hwl := wf.w_lt
        simp only [List.length_cons] at hnl
        obtain ⟨l1, keys1, e1, inv1, f1, f2, f3⟩ := letterStep_ok (s := s) (g := g) wf hi inv b1 b2 b3 b4 hp1
          (hr a (by simp)).1 hx hxw hn (by omega) hg
        have eo := letterStepOut_ok (W := W) wf inv b1 b2 b3 b4 hp1 (hr a (by simp)).1 (hr a (by simp)).2.1
          (hr a (by simp)).2.2 e1
        rw [e1, Res.ok_bind, eo, act_bind_ok rfl]
        rw [uadd_eq (by omega)] at h2 ⊢
        obtain ⟨T, l2, e2, e3, e4⟩ := ih (b.x + b.w) r as' l1 (as ++ [a]) keys1 h2
          (fun c hc => hb c (by simp [hc])) hp2 (fun c hc => hr c (by simp [hc])) inv1
          (by rw [f1]; simp [endBefore]) b3 f3 (by rw [f3, f1, List.length_append, ← hn, List.length_singleton]; omega) f2
        rw [e3]
        refine ⟨_, l2, e2, rfl, ?_⟩
        rw [show as ++ a :: as' = as ++ [a] ++ as' by simp, ← e4, firstSeen_snoc, List.flatMap_append, List.append_assoc]
        congr 1
        by_cases hm : a ∈ as <;> simp [hm]
    · rw [if_neg ht] at h ⊢
      rw [if_neg ht]
      cases h
      cases as' with
      | cons a as' => exact absurd hp (by simp [Pictures])
      | nil => exact ⟨[], l, rfl, rfl, by simp⟩


theorem extractTextOut_ok {s : Setup P} {g : RGlyphs} {infos : List WordInfo} {E : List FNode}
    {i : Image} {ans : Answer} {T : List Nat} {l : Line P} (nan : List Nat)
    (h1 : lineLoop s g i (i.bounds.w + 1) 0 (Line.init P) = .ok l)
    (h2 : lineLoopOut s g i (i.bounds.w + 1) 0 (Line.init P) = ⟨T, .ok l⟩)
    (h : extractText s g infos E i = .ok ans) :
    extractTextOut nan s g infos E i = ⟨T ++ showAnswer nan ans, .ok 0⟩ := by
  unfold extractText at h
  rw [h1, Res.ok_bind] at h
  obtain ⟨st1, e1, h⟩ := Res.bind_eq_ok.1 h
  obtain ⟨⟨f, st2⟩, e2, h⟩ := Res.bind_eq_ok.1 h
  simp only [] at h
  obtain ⟨amb, e3, h⟩ := Res.bind_eq_ok.1 h
  obtain ⟨⟨text, n⟩, e4, h⟩ := Res.bind_eq_ok.1 h
  simp only [] at h
  obtain ⟨hp, e5, h⟩ := Res.bind_eq_ok.1 h
  cases h
  unfold extractTextOut
  rw [h2, act_bind_ok rfl]
  simp only [e1, e2, e3, e4, e5, mute_ok_bind, say_bind, act_pure, List.append_nil]

theorem derefs_length {st : List (List View)} : ∀ {rs : List Nat} {amb : List (List View)}, derefs st rs = .ok amb →
    amb.length = rs.length := by
  intro rs
  induction rs with
  | nil => intro amb h; cases h; rfl
  | cons r rs ih =>
    intro amb h
    obtain ⟨v, _, h⟩ := Res.bind_eq_ok.1 h
    obtain ⟨vs, e, h⟩ := Res.bind_eq_ok.1 h
    cases h
    simp [ih e]

theorem extractText_count {s : Setup P} {g : RGlyphs} {infos : List WordInfo} {E : List FNode}
    {i : Image} {ans : Answer} {l : Line P} (h1 : lineLoop s g i (i.bounds.w + 1) 0 (Line.init P) = .ok l)
    (h : extractText s g infos E i = .ok ans) : ans.count = l.refs.length := by
  unfold extractText at h
  rw [h1, Res.ok_bind] at h
  obtain ⟨st1, e1, h⟩ := Res.bind_eq_ok.1 h
  obtain ⟨⟨f, st2⟩, e2, h⟩ := Res.bind_eq_ok.1 h
  simp only [] at h
  obtain ⟨amb, e3, h⟩ := Res.bind_eq_ok.1 h
  obtain ⟨⟨text, n⟩, e4, h⟩ := Res.bind_eq_ok.1 h
  simp only [] at h
  obtain ⟨hp, e5, h⟩ := Res.bind_eq_ok.1 h
  cases h
  exact derefs_length e3

end

theorem loadDictOut_ok {o : Option TextFile} {E : List FNode} (h : loadDict o = .ok E) :
    loadDictOut o = ⟨dictLine (o.map fun _ => !E.isEmpty), .ok E⟩ := by
  cases o with
  | none => cases h; rfl
  | some f =>
    simp only [loadDictOut]
    rw [h, mute_ok_bind, say_bind, act_pure]
    simp only [List.append_nil, Option.map_some]
    congr 1
    have h1 : lit " ## dict ? " ++ lit "false\n" = lit " ## dict ? false\n" := by decide +kernel
    have h2 : lit " ## dict ? " ++ lit "true\n" = lit " ## dict ? true\n" := by decide +kernel
    cases E with
    | nil => exact h1
    | cons _ _ => exact h2

theorem loadDictOut_throw {o : Option TextFile} (h : loadDict o = .throw) : loadDictOut o = ⟨[], .throw⟩ := by
  cases o with
  | none => cases h
  | some f =>
    simp only [loadDictOut]
    rw [h]
    rfl

theorem heading_eq (b : Option Bool) (n : Nat) : heading b n = dictLine b ++ (lit " ## datas.size(): " ++ showNat n ++ [10] ++
    (lit " ## glyphs.size(): " ++ showNat n ++ [10] ++ lit " ## go\n")) := by
  have h1 : lit "\n ## glyphs.size(): " = [10] ++ lit " ## glyphs.size(): " := by decide +kernel
  have h2 : lit "\n ## go\n" = [10] ++ lit " ## go\n" := by decide +kernel
  unfold heading
  rw [h1, h2]
  simp

theorem report_eq (nan : List Nat) (a : Answer) : showAnswer nan a = report a (showRate nan a) := by
  have : lit "\n" = [10] := by decide +kernel
  unfold showAnswer report
  rw [this]

end Ppocr

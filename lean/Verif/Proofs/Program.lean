import Verif.Proofs.Shrink
import Verif.Proofs.Recognise
import Verif.Props.ExtractText
import Verif.Props.FilterAll
import Verif.Props.Text
import Verif.Spec.Program

/-! # Helper lemmas: the whole reading of a line -/

namespace Ppocr
open Spec Props

theorem sum_nodup_le {α : Type} [BEq α] [LawfulBEq α] (f : α → Nat) : ∀ {l m : List α}, l.Nodup → (∀ x ∈ l, x ∈ m) →
    (l.map f).sum ≤ (m.map f).sum
  | [], _, _, _ => by simp
  | x :: l, m, hn, hs => by
    rw [List.nodup_cons] at hn
    have hx := hs x List.mem_cons_self
    have ih := sum_nodup_le f (l := l) (m := m.erase x) hn.2 (by
      intro y hy
      have hne : y ≠ x := fun h => hn.1 (by rw [← h]; exact hy)
      exact (List.mem_erase_of_ne hne).2 (hs y (List.mem_cons_of_mem _ hy)))
    have hp := ((List.perm_cons_erase hx).map f).sum_nat
    rw [hp]
    simp only [List.map_cons, List.sum_cons]
    omega

section
variable {P : Type} [LawfulDbl P]

/-- No more candidates than views. -/
theorem candidates_length {s : Setup P} {val : Simple → Nat} {n : Nat} {a r : Image} (hr : a.rotate90 = .ok r)
    (ok : SetupOk s val n a r) {v : List View} (h : candidates s a = .ok v) : v.length ≤ (s.glyphs.map List.length).sum := by
  obtain ⟨U, _, _, T, o, hT, e, _, _, h7⟩ := computeImage_ok s val n a r ok []
  unfold candidates at h
  rw [hr, Res.ok_bind, e, Res.ok_bind] at h
  cases h
  have key : ∀ l : P, (viewsOf s.glyphs T l).length ≤ (s.glyphs.map List.length).sum := by
    intro l
    unfold viewsOf
    rw [List.length_flatMap]
    have e : ((T.filter fun p => Dbl.le l p.2).map fun p => (s.glyphs.getD p.1 []).length) =
        ((T.filter fun p => Dbl.le l p.2).map Prod.fst).map fun g => (s.glyphs.getD g []).length := by
      rw [List.map_map]; rfl
    rw [e]
    have hle := sum_nodup_le (fun g => (s.glyphs.getD g []).length)
      (l := (T.filter fun p => Dbl.le l p.2).map Prod.fst) (m := List.range s.glyphs.length)
      (hT.1.sublist ((List.filter_sublist).map _)) (by
        intro x hx
        obtain ⟨p, hp, rfl⟩ := List.mem_map.1 hx
        rw [List.mem_range, ok.glyphs]
        exact hT.2 p (List.mem_filter.1 hp).1)
    refine Nat.le_trans hle (Nat.le_of_eq ?_)
    congr 1
    apply List.ext_getElem?
    intro k
    by_cases hk : k < s.glyphs.length
    · rw [List.getElem?_map, List.getElem?_map, List.getElem?_range hk, List.getElem?_eq_getElem hk, Option.map_some,
        List.getD_eq_getElem?_getD, List.getElem?_eq_getElem hk]
      rfl
    · rw [List.getElem?_eq_none (by simpa using hk), List.getElem?_eq_none (by simpa using hk)]
  rcases h7 with ⟨_, _, _, h⟩ | ⟨_, _, h⟩
  · rw [h]; exact key _
  · rw [h]
    cases T with
    | nil => simp
    | cons b T => exact key _

end

theorem derefs_ok {st : List (List View)} : ∀ {refs : List Nat}, RefsOk refs st →
    derefs st refs = .ok (refs.map fun r => st.getD r [])
  | [], _ => rfl
  | r :: refs, h => by
    have hr := h r List.mem_cons_self
    unfold derefs
    rw [rd_of_lt hr, Res.ok_bind, derefs_ok fun q hq => h q (List.mem_cons_of_mem _ hq), Res.ok_bind, List.map_cons,
      List.getD_eq_getElem?_getD, List.getElem?_eq_getElem hr]
    rfl

/-- What the filters may do to the candidates of a letter. -/
structure Chosen (l l' : List View) : Prop where
  sub : l'.Sublist l
  one : OneWord l → l ≠ [] → l' ≠ []

theorem chosen_refl (l : List View) : Chosen l l := ⟨List.Sublist.refl _, fun _ h => h⟩

theorem reduced_chosen {f : Nat} {l l' : List View} (h : Reduced f l l') : Chosen l l' := by
  by_cases hl : l.length < 2
  · rw [h.1 hl]; exact chosen_refl _
  · rcases h.2 (by omega) with ⟨k, v, h1, _, h3, _⟩ | ⟨_, v, h1, h3⟩
    all_goals
      rw [h3]
      exact ⟨List.singleton_sublist.2 (List.mem_of_getElem? h1), fun _ _ => by simp⟩

theorem filterByFont_chosen {refs : List Nat} {st : List (List View)} (hr : RefsOk refs st) (hn : refs.length < W32) :
    ∃ f st', filterByFont refs st = .ok (f, st') ∧ st'.length = st.length ∧
      ∀ r ∈ refs, Chosen (st.getD r []) (st'.getD r []) := by
  obtain ⟨f, st', e, h1, h2⟩ := C35_font refs st hr hn
  refine ⟨f, st', e, ?_⟩
  have triv : st' = st → st'.length = st.length ∧ ∀ r ∈ refs, Chosen (st.getD r []) (st'.getD r []) := by
    rintro rfl
    exact ⟨rfl, fun r _ => chosen_refl _⟩
  by_cases hz : ∀ g, fontCount refs st g = 0
  · exact triv (h1 hz).2
  · obtain ⟨g, hg⟩ := Classical.not_forall.1 hz
    obtain ⟨_, _, _, h3, h4⟩ := h2 ⟨g, by omega⟩
    by_cases hd : Dominant refs st f
    · obtain ⟨h5, _, h6⟩ := h4 hd
      refine ⟨h5, fun r hr' => ?_⟩
      obtain ⟨l, l', e1, e2, e3⟩ := h6 r hr'
      rw [List.getD_eq_getElem?_getD, List.getD_eq_getElem?_getD, e1, e2]
      exact reduced_chosen e3
    · exact triv (h3 hd)

theorem gaps_spaces (bs : List Box) : Spaces bs.length (gaps bs ++ [bs.length]) := by
  refine ⟨?_, by simp⟩
  rw [List.pairwise_append]
  refine ⟨(List.pairwise_lt_range).filter _, by simp, ?_⟩
  intro a ha b hb
  rw [List.mem_singleton] at hb
  subst hb
  exact List.mem_range.1 (List.mem_filter.1 ha).1

theorem sublist_known {g : RGlyphs} {W : Nat → List Nat} {gl : List (List View)} (hk : AllKnown g W gl) {l v : List View}
    (hs : l.Sublist v) (hv : ∀ x ∈ v, ∃ vs ∈ gl, x ∈ vs) : ∀ x ∈ l, Known g W x.word := by
  intro x hx
  obtain ⟨vs, h1, h2⟩ := hv x (hs.subset hx)
  exact hk vs h1 x h2

theorem pictures_unique {i : Image} : ∀ {bs : List Box} {as as' : List Image}, Pictures i bs as → Pictures i bs as' → as = as'
  | [], [], [], _, _ => rfl
  | _ :: _, _ :: _, _ :: _, ⟨h1, h2⟩, ⟨h3, h4⟩ => by
    rw [h1] at h3
    cases h3
    rw [pictures_unique h2 h4]

section
variable {P : Type} [LawfulDbl P]

theorem candidates_views {s : Setup P} {val : Simple → Nat} {n : Nat} {a r : Image} (hr : a.rotate90 = .ok r)
    (ok : SetupOk s val n a r) {v : List View} (h : candidates s a = .ok v) : ∀ x ∈ v, ∃ vs ∈ s.glyphs, x ∈ vs := by
  obtain ⟨o, e, ho⟩ := views_of_glyphs ok []
  unfold candidates at h
  rw [hr, Res.ok_bind, e, Res.ok_bind] at h
  cases h
  exact ho

/-- The program on a line whose letters can be recognised, before the dictionary. -/
theorem extractText_run (s : Setup P) (g : RGlyphs) (W : Nat → List Nat) (infos : List WordInfo) (i : Image) (wf : i.WF) (hw : 0 < i.bounds.w) (hh : 0 < i.bounds.h)
    (hsz : 2 * (i.bounds.w * i.bounds.h) + i.bounds.w + 4 < W32)
    (hrow : 1 < i.bounds.h ∨ ¬ BlankCol i (i.bounds.w - 1)) (hk : AllKnown g W s.glyphs)
    (hset : ∀ bs as, segment i = .ok bs → Pictures i bs as → ∀ a ∈ as,
      ∃ r val n, a.rotate90 = .ok r ∧ SetupOk s val n a r)
    (hviews : (s.glyphs.map List.length).sum < W32) (hinf : InfosSorted infos)
    (hsp : FirstHeld s infos i) :
    ∃ bs as amb, segment i = .ok bs ∧ Pictures i bs as ∧ as.length = bs.length ∧ amb.length = bs.length ∧
      bs.length < W32 ∧ AllKnown g W amb ∧ (∀ m ∈ amb, ∀ x ∈ m, ∃ vs ∈ s.glyphs, x ∈ vs) ∧
      (∀ E, extractText s g infos E i =
        (disambiguousWithDict g E amb (gaps bs ++ [bs.length]) >>= fun p => .ok ⟨p.1, p.2, bs.length⟩)) ∧
      (∀ (k : Nat) a, as[k]? = some a → ∃ v l, candidates s a = .ok v ∧ amb[k]? = some l ∧ Chosen v l) ∧
      ∃ refs st st1 f st2, refs.length = bs.length ∧
        (∀ (k m r q : Nat) (a b : Image), as[k]? = some a → as[m]? = some b → refs[k]? = some r → refs[m]? = some q →
          (r = q ↔ a = b)) ∧
        (∀ (k r : Nat) (a : Image), as[k]? = some a → refs[k]? = some r →
          ∃ v, candidates s a = .ok v ∧ st[r]? = some v) ∧
        filterByLines infos bs refs st = .ok st1 ∧ filterByFont refs st1 = .ok (f, st2) ∧
        amb = refs.map fun r => st2.getD r [] := by
  have hg : WordsRead s g := by
    intro vs hvs v hv
    have := hk vs hvs v hv
    exact ⟨_, getWord_of this.holds this.small⟩
  obtain ⟨bs, as, l, e1, hp, hal, e2, f1, f2, f3, f4, f5, f6, hp', ed, _⟩ := C56_same_list s g i wf hw hh hsz hrow hg hset
  obtain ⟨bs', eb, hbl, hbox, _⟩ := C13_segmentation_partial i wf hw hh (by omega) hrow
  rw [e1] at eb
  cases eb
  have hset := hset bs as e1 hp
  have hst : ∀ (r : Nat) v, l.st[r]? = some v → ∃ a ∈ as, candidates s a = .ok v := by
    intro r v hv
    obtain ⟨k, hk⟩ := f6 r (List.getElem?_eq_some_iff.1 hv).1
    have hlt : k < as.length := by
      rw [hal, ← f3]; exact (List.getElem?_eq_some_iff.1 hk).1
    obtain ⟨v', c1, c2⟩ := f5 k r _ (List.getElem?_eq_getElem hlt) hk
    rw [hv] at c2
    cases c2
    exact ⟨_, List.getElem_mem hlt, c1⟩
  have hrefs : RefsOk l.refs l.st := by
    intro r hr
    obtain ⟨k, hlt, rfl⟩ := List.mem_iff_getElem.1 hr
    have hlt' : k < as.length := by omega
    obtain ⟨v', _, c2⟩ := f5 k _ _ (List.getElem?_eq_getElem hlt') (List.getElem?_eq_getElem hlt)
    exact (List.getElem?_eq_some_iff.1 c2).1
  have hstok : StOk l.st := by
    intro v hv
    obtain ⟨r, hlt, rfl⟩ := List.mem_iff_getElem.1 hv
    obtain ⟨a, ha, hc⟩ := hst r _ (List.getElem?_eq_getElem hlt)
    obtain ⟨r', val, n, er, ok⟩ := hset a ha
    have := candidates_length er ok hc
    omega
  have hwlt : i.bounds.w < W32 := wf.w_lt
  have hboxok : ∀ c ∈ bs, BoxOk c := by
    intro b hb
    obtain ⟨⟨x0, c⟩, _⟩ := hbox b hb
    refine ⟨c.hpos, ?_⟩
    have := c.bottom
    have := Nat.mul_le_mul_right i.bounds.h hw
    omega
  obtain ⟨st1, e3, hsh⟩ : ∃ st1, filterByLines infos bs l.refs l.st = .ok st1 ∧ Shrunk l.st st1 := by
    cases bs with
    | nil =>
      have : filterByLines infos [] l.refs l.st = .ok l.st := by
        unfold filterByLines
        rw [show (decide (([] : List Box).length = l.refs.length)) = true from decide_eq_true f3.symm]
        rfl
      exact ⟨_, this, shrunk_refl _⟩
    | cons b bs =>
      obtain ⟨r, rs, hrr⟩ : ∃ r rs, l.refs = r :: rs := by
        cases h : l.refs with
        | nil => rw [h] at f3; exact absurd f3 (by simp)
        | cons r rs => exact ⟨r, rs, rfl⟩
      obtain ⟨a, as', haa⟩ : ∃ a as', as = a :: as' := by
        cases as with
        | nil => exact absurd hal (by simp)
        | cons a as' => exact ⟨a, as', rfl⟩
      obtain ⟨h1, h2⟩ := hsp b bs a as' e1 (haa ▸ hp)
      obtain ⟨v, c1, c2⟩ := f5 0 r a (by rw [haa]; rfl) (by rw [hrr]; rfl)
      obtain ⟨baseline, v0, mid0, n0, m1, m2, m3, m4, m5⟩ := C36_exact infos b bs r rs l.st hinf hboxok
        (by rw [← hrr]; exact f3.symm) (by rw [← hrr, f3]; omega) (hrr ▸ hrefs) hstok h1
      rw [c2] at m2
      cases m2
      obtain ⟨st1, e, _⟩ := m5 fun hub => by
        obtain ⟨m6, m7⟩ := m4.1 hub
        exact h2.elim m7 fun h => h v c1 ⟨baseline, mid0, n0, m1, m3, m6⟩
      rw [← hrr] at e
      exact ⟨st1, e, filterByLines_shrunk e⟩
  have hrefs1 : RefsOk l.refs st1 := by
    intro r hr; rw [hsh.1]; exact hrefs r hr
  obtain ⟨f, st2, e4, hl2, hch⟩ := filterByFont_chosen hrefs1 (by omega)
  have hrefs2 : RefsOk l.refs st2 := by
    intro r hr; rw [hl2]; exact hrefs1 r hr
  have e5 := derefs_ok hrefs2
  have hamb : ∀ (k : Nat) a, as[k]? = some a → ∃ v m, candidates s a = .ok v ∧
      (l.refs.map fun r => st2.getD r [])[k]? = some m ∧ Chosen v m := by
    intro k a ha
    have hlt : k < l.refs.length := by
      rw [f3, ← hal]; exact (List.getElem?_eq_some_iff.1 ha).1
    have hr := List.getElem?_eq_getElem hlt
    obtain ⟨v, c1, c2⟩ := f5 k _ a ha hr
    obtain ⟨v1, d1, d2, d3⟩ := hsh.2 _ v c2
    have hc := hch _ (List.getElem_mem hlt)
    refine ⟨v, st2.getD l.refs[k] [], c1, by rw [List.getElem?_map, hr]; rfl, ?_⟩
    rw [List.getD_eq_getElem?_getD, d1, Option.getD_some] at hc
    refine ⟨hc.sub.trans d2, fun ho hne => ?_⟩
    have := d3 ho
    subst this
    exact hc.one ho hne
  have hfrom : ∀ m ∈ l.refs.map fun r => st2.getD r [], ∀ x ∈ m, ∃ vs ∈ s.glyphs, x ∈ vs := by
    intro m hm x hx
    obtain ⟨k, hlt, rfl⟩ := List.mem_iff_getElem.1 hm
    have hlt' : k < as.length := by
      rw [List.length_map] at hlt; omega
    obtain ⟨v, m, c1, c2, c3⟩ := hamb k _ (List.getElem?_eq_getElem hlt')
    obtain ⟨r', val, n, er, ok⟩ := hset _ (List.getElem_mem hlt')
    rw [List.getElem?_eq_getElem hlt] at c2
    have c2 := Option.some.inj c2
    rw [c2] at hx
    exact candidates_views er ok c1 x (c3.sub.subset hx)
  have hknown : AllKnown g W (l.refs.map fun r => st2.getD r []) := by
    intro m hm x hx
    obtain ⟨vs, h1, h2⟩ := hfrom m hm x hx
    exact hk vs h1 x h2
  have hlen : (l.refs.map fun r => st2.getD r []).length = bs.length := by rw [List.length_map, f3]
  generalize hambd : (l.refs.map fun r => st2.getD r []) = amb at *
  refine ⟨bs, as, amb, e1, hp, hal, hlen, by omega, hknown, hfrom, ?_, hamb,
    l.refs, l.st, st1, f, st2, f3, f4, f5, e3, e4, hambd.symm⟩
  intro E
  unfold extractText
  rw [e2, Res.ok_bind, f1, f2, e3, Res.ok_bind, e4, Res.ok_bind]
  simp only []
  rw [e5, Res.ok_bind, hlen]
  cases disambiguousWithDict g E amb (gaps bs ++ [bs.length]) with
  | ok p =>
    simp only [Res.ok_bind]
    rw [ed, Res.ok_bind]
    rfl
  | throw => rfl
  | abort => rfl
  | ub => rfl
  | diverge => rfl

/-- The program on a line whose letters can be recognised. -/
theorem extractText_ok (s : Setup P) (g : RGlyphs) (W : Nat → List Nat) (infos : List WordInfo) (E : List FNode)
    (S : StdSort) (ws : List (List Nat)) (i : Image) (wf : i.WF) (hw : 0 < i.bounds.w) (hh : 0 < i.bounds.h)
    (hsz : 2 * (i.bounds.w * i.bounds.h) + i.bounds.w + 4 < W32)
    (hrow : 1 < i.bounds.h ∨ ¬ BlankCol i (i.bounds.w - 1)) (hk : AllKnown g W s.glyphs)
    (hset : ∀ bs as, segment i = .ok bs → Pictures i bs as → ∀ a ∈ as,
      ∃ r val n, a.rotate90 = .ok r ∧ SetupOk s val n a r)
    (hviews : (s.glyphs.map List.length).sum < W32) (hinf : InfosSorted infos) (hd : DictOf S ws E)
    (hsp : FirstHeld s infos i) :
    ∃ bs as amb ans, segment i = .ok bs ∧ Pictures i bs as ∧ as.length = bs.length ∧ amb.length = bs.length ∧
      bs.length < W32 ∧ extractText s g infos E i = .ok ans ∧ ans.count = bs.length ∧ AllKnown g W amb ∧
      (∀ (k : Nat) a, as[k]? = some a → ∃ v l, candidates s a = .ok v ∧ amb[k]? = some l ∧ Chosen v l) ∧
      disambiguousWithDict g E amb (gaps bs ++ [bs.length]) = .ok (ans.text, ans.unrecognized) ∧
      ∃ refs st st1 f st2, refs.length = bs.length ∧
        (∀ (k m r q : Nat) (a b : Image), as[k]? = some a → as[m]? = some b → refs[k]? = some r → refs[m]? = some q →
          (r = q ↔ a = b)) ∧
        (∀ (k r : Nat) (a : Image), as[k]? = some a → refs[k]? = some r →
          ∃ v, candidates s a = .ok v ∧ st[r]? = some v) ∧
        filterByLines infos bs refs st = .ok st1 ∧ filterByFont refs st1 = .ok (f, st2) ∧
        amb = refs.map fun r => st2.getD r [] := by
  obtain ⟨bs, as, amb, e1, hp, hal, hlen, hlt, hknown, _, hrun, hamb, hfil⟩ :=
    extractText_run s g W infos i wf hw hh hsz hrow hk hset hviews hinf hsp
  have hspaces := gaps_spaces bs
  obtain ⟨e, rest, her⟩ : ∃ e rest, gaps bs ++ [bs.length] = e :: rest := by
    cases h : gaps bs ++ [bs.length] with
    | nil => simp at h
    | cons e rest => exact ⟨e, rest, rfl⟩
  obtain ⟨lead, _, e6⟩ := C44_exact S ws E g W amb e rest hd hknown (by rw [hlen, ← her]; exact hspaces) (by omega)
  rw [← her] at e6
  refine ⟨bs, as, amb, ⟨_, _, bs.length⟩, e1, hp, hal, hlen, hlt, ?_, rfl, hknown, hamb, e6, hfil⟩
  rw [hrun E, e6, Res.ok_bind]
  rfl

theorem isMode_unique {ys : List Nat} {y z : Nat} (h : IsMode ys y) (h' : IsMode ys z) : y = z := by
  have h1 := h.2 z
  have h2 := h'.2 y
  have e : ys.count z = ys.count y := by omega
  have := h1.2 e h'.1
  have := h2.2 e.symm h.1
  omega

/-- What counts for the meanline does not depend on how the list is cut in runs. -/
theorem meanTop_unique {infos : List WordInfo} {b : Box} {p : View → Bool} {l m m' : List View} {n n' : Nat}
    (h : LineFiltered p l m n) (h' : LineFiltered p l m' n') : meanTop infos b m n = meanTop infos b m' n' := by
  have two : ∀ {g h rest}, TwoRuns g h rest l → ¬ OneWord l := by
    intro g h rest t o
    obtain ⟨u, hu⟩ := List.exists_mem_of_ne_nil _ t.g_ne
    obtain ⟨v, hv⟩ := List.exists_mem_of_ne_nil _ t.h_ne
    exact t.differ u hu v hv (o u (by rw [t.eq]; simp [hu]) v (by rw [t.eq]; simp [hv]))
  have head : ∀ {g h rest}, TwoRuns g h rest l → ∃ u ∈ g, l.head? = some u ∧ ∀ r : List View, (g ++ h ++ r)[0]? = some u := by
    intro g h rest t
    cases g with
    | nil => exact absurd rfl t.g_ne
    | cons u g => exact ⟨u, List.mem_cons_self, by rw [t.eq]; rfl, fun r => rfl⟩
  rcases h with ⟨h1, h2, h3⟩ | ⟨g, k, rest, t, h⟩ <;> rcases h' with ⟨h1', h2', h3'⟩ | ⟨g', k', rest', t', h'⟩
  · rw [h2, h3, h2', h3']
  · exact absurd h1 (two t')
  · exact absurd h1' (two t)
  · obtain ⟨u, hu, hl, hz⟩ := head t
    obtain ⟨u', hu', hl', hz'⟩ := head t'
    rw [hl] at hl'
    cases hl'
    rcases h with ⟨h1, h2, h3⟩ | ⟨h1, h2, h3⟩ <;> rcases h' with ⟨h1', h2', h3'⟩ | ⟨h1', h2', h3'⟩
    · rw [h2, h3, h2', h3']
    · have := h1 u hu
      rw [h1' u hu'] at this
      cases this
    · have := h1 u hu
      rw [h1' u hu'] at this
      cases this
    · unfold meanTop
      rw [h3, h3', h2, h2', hz, hz']

/-- The program on a line of which the first box has no cell. -/
theorem extractText_unheld (s : Setup P) (g : RGlyphs) (infos : List WordInfo) (E : List FNode) (i : Image) (wf : i.WF)
    (hw : 0 < i.bounds.w) (hh : 0 < i.bounds.h) (hsz : 2 * (i.bounds.w * i.bounds.h) + i.bounds.w + 4 < W32)
    (hrow : 1 < i.bounds.h ∨ ¬ BlankCol i (i.bounds.w - 1)) (hg : WordsRead s g)
    (hset : ∀ bs as, segment i = .ok bs → Pictures i bs as → ∀ a ∈ as,
      ∃ r val n, a.rotate90 = .ok r ∧ SetupOk s val n a r)
    (hviews : (s.glyphs.map List.length).sum < W32) (hinf : InfosSorted infos)
    (hheld : ¬ FirstHeld s infos i) : extractText s g infos E i = .ub := by
  obtain ⟨bs', as, l, e1, hp, hal, e2, f1, f2, f3, f4, f5, f6, _⟩ := C56_same_list s g i wf hw hh hsz hrow hg hset
  obtain ⟨b, hheld⟩ := Classical.not_forall.1 hheld
  obtain ⟨bs, hheld⟩ := Classical.not_forall.1 hheld
  obtain ⟨a, hheld⟩ := Classical.not_forall.1 hheld
  obtain ⟨as', hheld⟩ := Classical.not_forall.1 hheld
  obtain ⟨hs, hheld⟩ := Classical.not_imp.1 hheld
  obtain ⟨hp', hheld⟩ := Classical.not_imp.1 hheld
  rw [hs] at e1
  cases e1
  have := pictures_unique hp hp'
  subst this
  obtain ⟨bs', eb, hbl, hbox, _⟩ := C13_segmentation_partial i wf hw hh (by omega) hrow
  rw [hs] at eb
  cases eb
  have hwlt : i.bounds.w < W32 := wf.w_lt
  have hboxok : ∀ c ∈ b :: bs, BoxOk c := by
    intro b hb
    obtain ⟨⟨x0, c⟩, _⟩ := hbox b hb
    refine ⟨c.hpos, ?_⟩
    have := c.bottom
    have := Nat.mul_le_mul_right i.bounds.h hw
    omega
  unfold extractText
  rw [e2, Res.ok_bind, f1]
  by_cases hlow : LowHeld b bs
  · have hheld : ¬ TopHeld b bs ∧ ∃ v, candidates s a = .ok v ∧ CountsMean infos b bs v := by
      constructor
      · intro h
        exact hheld ⟨hlow, .inl h⟩
      · apply Classical.byContradiction
        intro h
        exact hheld ⟨hlow, .inr fun v hv hc => h ⟨v, hv, hc⟩⟩
    obtain ⟨ht, v, hv, baseline, mid, n, k1, k2, k3⟩ := hheld
    obtain ⟨r, rs, hrr⟩ : ∃ r rs, l.refs = r :: rs := by
      cases h : l.refs with
      | nil => rw [h] at f3; exact absurd f3 (by simp)
      | cons r rs => exact ⟨r, rs, rfl⟩
    have hset := hset _ _ hs hp
    have hst : ∀ (r : Nat) v, l.st[r]? = some v → ∃ c ∈ a :: as', candidates s c = .ok v := by
      intro r v hv
      obtain ⟨k, hk⟩ := f6 r (List.getElem?_eq_some_iff.1 hv).1
      have hlt : k < (a :: as').length := by
        rw [hal, ← f3]; exact (List.getElem?_eq_some_iff.1 hk).1
      obtain ⟨v', c1, c2⟩ := f5 k r _ (List.getElem?_eq_getElem hlt) hk
      rw [hv] at c2
      cases c2
      exact ⟨_, List.getElem_mem hlt, c1⟩
    have hrefs : RefsOk l.refs l.st := by
      intro r hr
      obtain ⟨k, hlt, rfl⟩ := List.mem_iff_getElem.1 hr
      have hlt' : k < (a :: as').length := by omega
      obtain ⟨v', _, c2⟩ := f5 k _ _ (List.getElem?_eq_getElem hlt') (List.getElem?_eq_getElem hlt)
      exact (List.getElem?_eq_some_iff.1 c2).1
    have hstok : StOk l.st := by
      intro v hv
      obtain ⟨r, hlt, rfl⟩ := List.mem_iff_getElem.1 hv
      obtain ⟨c, hc', hc⟩ := hst r _ (List.getElem?_eq_getElem hlt)
      obtain ⟨r', val, n, er, ok⟩ := hset c hc'
      have := candidates_length er ok hc
      omega
    obtain ⟨v', c1, c2⟩ := f5 0 r a rfl (by rw [hrr]; rfl)
    rw [hv] at c1
    cases c1
    obtain ⟨baseline', v0, mid0, n0, m1, m2, m3, m4, _⟩ := C36_exact infos b bs r rs l.st hinf hboxok
      (by rw [← hrr]; exact f3.symm) (by rw [← hrr, f3]; omega) (hrr ▸ hrefs) hstok hlow
    rw [c2] at m2
    cases m2
    have := isMode_unique k1 m1
    subst this
    rw [hrr, m4.2 ⟨by rw [← meanTop_unique k2 m3]; exact k3, ht⟩]
    rfl
  · rw [C36_low infos b bs l.refs l.st hboxok f3.symm hlow]
    rfl

/-- The program on a line with a letter whose recognition is undefined. -/
theorem extractText_unread (s : Setup P) (g : RGlyphs) (infos : List WordInfo) (E : List FNode) (i : Image) (wf : i.WF)
    (hw : 0 < i.bounds.w) (hh : 0 < i.bounds.h) (hsz : 2 * (i.bounds.w * i.bounds.h) + i.bounds.w + 4 < W32)
    (hrow : 1 < i.bounds.h ∨ ¬ BlankCol i (i.bounds.w - 1)) (hg : WordsRead s g) {bs : List Box} {as : List Image}
    (e : segment i = .ok bs) (hp : Pictures i bs as)
    (hset : ∀ a ∈ as, ∃ r, a.rotate90 = .ok r ∧ ((∃ val n, SetupOk s val n a r) ∨ ∀ t, computeImage s t a r = .ub))
    (hun : ∃ a ∈ as, ∃ r, a.rotate90 = .ok r ∧ ∀ t, computeImage s t a r = .ub) : extractText s g infos E i = .ub := by
  obtain ⟨bs', e', hlen, hbox, _⟩ := C13_segmentation_partial i wf hw hh (by omega) hrow
  rw [e] at e'
  cases e'
  have hin : ∀ b ∈ bs, 0 < b.w ∧ 0 < b.h ∧ b.x + b.w ≤ i.bounds.w ∧ b.y + b.h ≤ i.bounds.h := by
    intro b hb
    obtain ⟨⟨x0, c⟩, _⟩ := hbox b hb
    exact ⟨c.wpos, c.hpos, c.right, c.bottom⟩
  have hpic : ∀ a ∈ as, a.WF ∧ 0 < a.bounds.w ∧ 0 < a.bounds.h ∧ 2 * (a.bounds.w * a.bounds.h) < W32 := by
    intro a ha
    obtain ⟨b, hb, hp1⟩ := pictures_box hp ha
    obtain ⟨b1, b2, b3, b4⟩ := hin b hb
    obtain ⟨c', e1, wc, hb, _⟩ := C55_section i wf b.x b.y b.bounds b1 b2 (show b.w + b.x ≤ _ by omega)
      (show b.h + b.y ≤ _ by omega)
    rw [hp1] at e1
    cases e1
    refine ⟨wc, by rw [hb]; exact b1, by rw [hb]; exact b2, ?_⟩
    rw [hb]
    have := Nat.mul_le_mul (show b.bounds.w ≤ i.bounds.w by show b.w ≤ _; omega)
      (show b.bounds.h ≤ i.bounds.h by show b.h ≤ _; omega)
    omega
  have hunread : ∀ a ∈ as, (∃ r, a.rotate90 = .ok r ∧ ∀ t, computeImage s t a r = .ub) → Unread s a := by
    rintro a ha ⟨r, er, hr⟩
    obtain ⟨h1, _, _, h4⟩ := hpic a ha
    refine ⟨h1, h4, ?_⟩
    intro r' er'
    rw [er] at er'
    cases er'
    exact hr
  unfold extractText
  rw [lineLoop_ub (s := s) (g := g) wf (by omega) (i.bounds.w + 1) 0 bs as (Line.init P) [] [] e hin hp ?_ ?_ (by simp)
    (lineInv_init s) rfl (Nat.zero_le _) rfl (by show 0 + _ < _; have := wf.w_lt; omega) rfl]
  · rfl
  · intro a ha
    obtain ⟨h1, h2, h3, h4⟩ := hpic a ha
    obtain ⟨r, er, ⟨val, n, ok⟩ | hr⟩ := hset a ha
    · exact .inl (readable_of h1 h2 h3 h4 er ok hg)
    · exact .inr (hunread a ha ⟨r, er, hr⟩)
  · obtain ⟨a, ha, h⟩ := hun
    exact ⟨a, ha, hunread a ha h⟩

end

end Ppocr

import Verif.Spec.AnyGlyphs
import Verif.Proofs.Text
import Verif.Proofs.Cut
import Verif.Proofs.GlyphsLoad
import Verif.Model.Tools

/-! # Reading any glyph file -/

namespace Ppocr
open Spec

/-! ## UTF-8 texts can be cut at ASCII characters -/

theorem enc_high {c : Nat} (h : 128 ≤ c) : ∀ b ∈ enc c, 128 ≤ b := by
  intro b hb
  unfold enc at hb
  rw [if_neg (by omega)] at hb
  split at hb
  · simp only [List.mem_cons, List.not_mem_nil, or_false] at hb
    omega
  · split at hb
    · simp only [List.mem_cons, List.not_mem_nil, or_false] at hb
      omega
    · simp only [List.mem_cons, List.not_mem_nil, or_false] at hb
      omega

theorem utf8_nil : Utf8 [] := ⟨[], by simp, rfl⟩

theorem utf8_cons {c : Nat} {l : List Nat} (hc : Scalar c) (h : Utf8 l) : Utf8 (enc c ++ l) := by
  obtain ⟨cs, h1, rfl⟩ := h
  exact ⟨c :: cs, by simpa using ⟨hc, h1⟩, by rw [encAll_cons]⟩

theorem utf8_cut : ∀ (cs l r : List Nat) (c : Nat), (∀ x ∈ cs, Scalar x) → c < 128 → encAll cs = l ++ c :: r →
    Utf8 l ∧ Utf8 (c :: r) ∧ Utf8 r
  | [], l, r, c, _, _, h => by simp [encAll] at h
  | x :: cs, l, r, c, hs, hc, h => by
    have hx := hs x (by simp)
    have hs' : ∀ y ∈ cs, Scalar y := fun y hy => hs y (by simp [hy])
    rw [encAll_cons] at h
    by_cases hlt : x < 128
    · have e : enc x = [x] := by unfold enc; rw [if_pos hlt]
      rw [e] at h
      cases l with
      | nil =>
        simp only [List.cons_append, List.nil_append, List.cons.injEq] at h
        obtain ⟨rfl, rfl⟩ := h
        refine ⟨utf8_nil, ⟨x :: cs, hs, by rw [encAll_cons, e]; rfl⟩, ⟨cs, hs', rfl⟩⟩
      | cons y l =>
        simp only [List.cons_append, List.nil_append, List.cons.injEq] at h
        obtain ⟨rfl, h⟩ := h
        obtain ⟨h1, h2⟩ := utf8_cut cs l r c hs' hc h
        refine ⟨?_, h2⟩
        have := utf8_cons hx h1
        rwa [e] at this
    · have hh := enc_high (c := x) (by omega)
      rcases List.append_eq_append_iff.1 h with ⟨a, h1, h2⟩ | ⟨a, h1, h2⟩
      · obtain ⟨h3, h4⟩ := utf8_cut cs a r c hs' hc h2
        subst h1
        exact ⟨utf8_cons hx h3, h4⟩
      · cases a with
        | nil =>
          rw [List.append_nil] at h1
          rw [List.nil_append] at h2
          obtain ⟨h3, h4⟩ := utf8_cut cs [] r c hs' hc h2.symm
          have := utf8_cons hx h3
          rw [List.append_nil, h1] at this
          exact ⟨this, h4⟩
        | cons y a =>
          simp only [List.cons_append, List.cons.injEq] at h2
          have := hh y (by rw [h1]; simp)
          omega

theorem utf8_split {l r : List Nat} {c : Nat} (hc : c < 128) (h : Utf8 (l ++ c :: r)) : Utf8 l ∧ Utf8 (c :: r) ∧ Utf8 r := by
  obtain ⟨cs, h1, h2⟩ := h
  exact utf8_cut cs l r c h1 hc h2

/-- Up to an ASCII character. -/
theorem utf8_until {p : Nat → Bool} (hp : ∀ c, p c = false → c < 128) {u : List Nat} (h : Utf8 u) :
    Utf8 (u.takeWhile p) ∧ Utf8 (u.dropWhile p) := by
  have e := List.takeWhile_append_dropWhile (p := p) (l := u)
  cases hd : u.dropWhile p with
  | nil =>
    rw [hd, List.append_nil] at e
    rw [e]
    exact ⟨h, utf8_nil⟩
  | cons c r =>
    have hc : p c = false := by
      have := List.head?_dropWhile_not p u
      rw [hd] at this
      simpa using this
    rw [← e, hd] at h
    obtain ⟨h1, h2, _⟩ := utf8_split (hp c hc) h
    exact ⟨h1, h2⟩

/-- Behind ASCII characters. -/
theorem utf8_behind {p : Nat → Bool} (hp : ∀ c, p c = true → c < 128) : ∀ {u : List Nat}, Utf8 u → Utf8 (u.dropWhile p)
  | [], h => h
  | c :: u, h => by
    rw [List.dropWhile_cons]
    split
    · rename_i hc
      exact utf8_behind hp (utf8_split (l := []) (hp c hc) h).2.2
    · exact h

theorem isSpace_ascii {c : Nat} (h : isSpace c = true) : c < 128 := by
  unfold isSpace at h
  simp at h
  omega

theorem isDec_ascii {c : Nat} (h : isDec c = true) : c < 128 := by
  unfold isDec at h
  simp at h
  omega

theorem sentry_utf8 {s : IS} (b : Bool) (h : Utf8 s.rest) : Utf8 (s.sentry b).1.rest := by
  unfold IS.sentry
  split
  · exact h
  · split
    · simp only []
      split
      · exact utf8_nil
      · exact utf8_behind (fun c => isSpace_ascii) h
    · exact h

theorem ignore_utf8 {s : IS} (h : Utf8 s.rest) : Utf8 (s.ignore 10).rest := by
  have h1 := sentry_utf8 true h
  unfold IS.ignore
  rcases e : s.sentry true with ⟨s', b⟩
  rw [e] at h1
  cases b with
  | false => exact h1
  | true =>
    simp only [] at h1 ⊢
    have h2 := (utf8_until (p := fun c => decide (c ≠ 10)) (by intro c hc; simp at hc; omega) h1).2
    split
    · exact utf8_nil
    · rename_i c r e'
      have hc : c = 10 := by
        have := List.head?_dropWhile_not (fun c => decide (c ≠ 10)) s'.rest
        rw [e'] at this
        simpa using this
      rw [e'] at h2
      exact (utf8_split (l := []) (by omega) h2).2.2

theorem parseSign_utf8 {l : List Nat} (h : Utf8 l) : Utf8 (parseSign l).2 := by
  cases l with
  | nil => exact h
  | cons c t =>
    simp only [parseSign]
    split
    · exact (utf8_split (l := []) (by omega) h).2.2
    · split
      · exact (utf8_split (l := []) (by omega) h).2.2
      · exact h

theorem uint_utf8 {m : Nat} {s : IS} {o : Nat} (h : Utf8 s.rest) : Utf8 (s.uint m o).2.rest := by
  have h1 := sentry_utf8 false h
  unfold IS.uint
  rcases e : s.sentry false with ⟨s', b⟩
  rw [e] at h1
  cases b with
  | false => exact h1
  | true =>
    have h2 := utf8_behind (p := isDec) (fun c => isDec_ascii) (parseSign_utf8 h1)
    simp only [] at h2 ⊢
    split
    · exact h2
    · split <;> exact h2

theorem str_utf8 {s : IS} (h : Utf8 s.rest) : Utf8 (s.str []).1 ∧ Utf8 (s.str []).2.rest := by
  have h1 := sentry_utf8 false h
  unfold IS.str
  rcases e : s.sentry false with ⟨s', b⟩
  rw [e] at h1
  cases b with
  | false => exact ⟨utf8_nil, h1⟩
  | true =>
    exact utf8_until (p := fun c => !isSpace c) (by
      intro c hc
      exact isSpace_ascii (by simpa using hc)) h1

/-! ## A word takes its bytes from the file -/

theorem sentry_suffix (s : IS) (b : Bool) : (s.sentry b).1.rest <:+ s.rest := by
  unfold IS.sentry
  split
  · exact List.suffix_refl _
  · split
    · simp only []
      split
      · exact List.nil_suffix
      · exact List.dropWhile_suffix _
    · exact List.suffix_refl _

/-- A string that is read is a token, and stands in the file in front of what is left. -/
theorem str_token {s : IS} (h : (s.str []).2.fail = false) :
    Token (s.str []).1 ∧ (s.str []).1 ++ (s.str []).2.rest <:+ s.rest := by
  have h1 := sentry_suffix s false
  have h0 := @sentry_false s false
  unfold IS.str at h ⊢
  rcases e : s.sentry false with ⟨s', b⟩
  rw [e] at h h1 h0
  cases b with
  | false =>
    have := h0 rfl
    simp only [] at h this
    rw [this] at h
    simp at h
  | true =>
    simp only [] at h h1 ⊢
    refine ⟨⟨by simpa using h, ?_⟩, ?_⟩
    · intro c hc
      have := List.all_takeWhile (p := fun c => !isSpace c) (l := s'.rest)
      rw [List.all_eq_true] at this
      simpa using this c hc
    · rw [List.takeWhile_append_dropWhile]
      exact h1

theorem ignore_suffix (s : IS) (d : Nat) : (s.ignore d).rest <:+ s.rest := by
  have h := sentry_suffix s true
  unfold IS.ignore
  rcases e : s.sentry true with ⟨s', b⟩
  rw [e] at h
  cases b with
  | false => exact h
  | true =>
    simp only [] at h ⊢
    split
    · exact List.nil_suffix
    · rename_i c r e'
      have h2 := List.dropWhile_suffix (l := s'.rest) (fun c => decide (c ≠ d))
      rw [e'] at h2
      exact ((List.suffix_cons c r).trans h2).trans h

theorem parseSign_suffix (l : List Nat) : (parseSign l).2 <:+ l := by
  cases l with
  | nil => exact List.suffix_refl _
  | cons c t =>
    simp only [parseSign]
    split
    · exact List.suffix_cons _ _
    · split
      · exact List.suffix_cons _ _
      · exact List.suffix_refl _

theorem uint_suffix (m : Nat) (s : IS) (o : Nat) : (s.uint m o).2.rest <:+ s.rest := by
  have h1 := sentry_suffix s false
  unfold IS.uint
  rcases e : s.sentry false with ⟨s', b⟩
  rw [e] at h1
  cases b with
  | false => exact h1
  | true =>
    have h2 := ((List.dropWhile_suffix (l := (parseSign s'.rest).2) isDec).trans (parseSign_suffix _)).trans h1
    simp only [] at h2 ⊢
    split
    · exact h2
    · split <;> exact h2

theorem str_suffix (s : IS) : (s.str []).2.rest <:+ s.rest := by
  have h1 := sentry_suffix s false
  unfold IS.str
  rcases e : s.sentry false with ⟨s', b⟩
  rw [e] at h1
  cases b with
  | false => exact h1
  | true => exact (List.dropWhile_suffix _).trans h1

theorem ignore_fail {s : IS} {d : Nat} (h : (s.ignore d).fail = false) : s.fail = false := by
  have h0 := @sentry_false s true
  have h2 := @sentry_true s true
  unfold IS.ignore at h
  rcases e : s.sentry true with ⟨s', b⟩
  rw [e] at h h0 h2
  cases b with
  | false =>
    have := h0 rfl
    simp only [] at h this
    rw [this] at h
    simp at h
  | true => exact (h2 rfl).1

/-! ## The maps while a file `t` is read -/

/-- What holds of the words read so far, and of what is left of the file. -/
structure Reading (t : List Nat) (s : IS) (wm : StrMap) : Prop where
  ok : MapOk wm
  left : s.rest <:+ t
  size : ((wm.map Prod.fst).map room).sum + s.rest.length ≤ t.length
  words : ∀ w ∈ wm.map Prod.fst, Token w ∧ w <:+: t ∧ (Utf8 t → Utf8 w)
  utf8 : Utf8 t → Utf8 s.rest

theorem room_le {w : List Nat} (h : w ≠ []) : room w ≤ w.length + 1 := by
  have := List.length_pos_iff.2 h
  unfold room
  omega

/-- One more word. -/
theorem Reading.word {t : List Nat} {s : IS} {wm : StrMap} (h : Reading t s wm) (ht : t.length < W32)
    (hf : (((s.str []).2.str []).2.ignore 10).fail = false) :
    Reading t (((s.str []).2.str []).2.ignore 10) (intern wm (s.str []).1).2 ∧ MapExt wm (intern wm (s.str []).1).2 ∧
      mapFind (intern wm (s.str []).1).2 (s.str []).1 = some (intern wm (s.str []).1).1 ∧
      ∀ w ∈ (intern wm (s.str []).1).2.map Prod.fst, w ∈ wm.map Prod.fst ∨ w = (s.str []).1 := by
  have f2 := ignore_fail hf
  have f1 := (str_mono _ _).2 f2
  obtain ⟨t1, s1⟩ := str_token f1
  obtain ⟨t2, s2⟩ := str_token f2
  have hlen : wm.length < W32 := by
    have := length_le_room (wm.map Prod.fst)
    have := h.size
    simp only [List.length_map] at *
    omega
  obtain ⟨k1, k2, k3, k4, _⟩ := intern_ok h.ok (s.str []).1 hlen
  have hs1 := s1.length_le
  have hs2 := s2.length_le
  have hs3 := ignore_le ((s.str []).2.str []).2 10
  rw [List.length_append] at hs1 hs2
  have hp2 := List.length_pos_iff.2 t2.1
  have hr := room_le t1.1
  refine ⟨⟨k1, ?_, ?_, ?_, ?_⟩, k2, k4, fun w hw => by simpa using (k3 w).1 hw⟩
  · exact (((ignore_suffix _ _).trans (str_suffix _)).trans (str_suffix _)).trans h.left
  · have : (((intern wm (s.str []).1).2.map Prod.fst).map room).sum ≤ (((s.str []).1 :: wm.map Prod.fst).map room).sum :=
      sum_room_le k1.sorted.nodup (by
        intro w hw
        rcases (k3 w).1 hw with hw | hw
        · simp [hw]
        · simp only [List.mem_singleton] at hw
          simp [hw])
    simp only [List.map_cons, List.sum_cons] at this
    have := h.size
    omega
  · intro w hw
    rcases (k3 w).1 hw with hw | hw
    · exact h.words w hw
    · simp only [List.mem_singleton] at hw
      subst hw
      refine ⟨t1, ?_, fun hu => (str_utf8 (h.utf8 hu)).1⟩
      exact (List.prefix_append _ _).isInfix.trans (s1.trans h.left).isInfix
  · intro hu
    exact ignore_utf8 (str_utf8 (str_utf8 (h.utf8 hu)).2).2

theorem Reading.skip {t : List Nat} {s s' : IS} {wm : StrMap} (h : Reading t s wm) (hs : s'.rest <:+ s.rest)
    (hu : Utf8 s.rest → Utf8 s'.rest) : Reading t s' wm :=
  ⟨h.ok, hs.trans h.left, by have := h.size; have := hs.length_le; omega, h.words, fun ht => hu (h.utf8 ht)⟩

/-- The view has the number of a word, or no word was read for it. -/
def Numbered (wm : StrMap) (v : View) : Prop := (∃ w, mapFind wm w = some v.word) ∨ v = ⟨0, 0⟩

theorem Numbered.mono {m m' : StrMap} {v : View} (h : Numbered m v) (he : MapExt m m') : Numbered m' v := by
  rcases h with ⟨w, hw⟩ | h
  · exact .inl ⟨w, he _ _ hw⟩
  · exact .inr h

theorem rviewsLoop_any {t : List Nat} (ht : t.length < W32) : ∀ (n : Nat) (s : IS) (wm fm : StrMap), Reading t s wm →
    Reading t (rviewsLoop n s wm fm).2.1 (rviewsLoop n s wm fm).2.2.1 ∧ MapExt wm (rviewsLoop n s wm fm).2.2.1 ∧
      (rviewsLoop n s wm fm).1.length = n ∧ (∀ v ∈ (rviewsLoop n s wm fm).1, Numbered (rviewsLoop n s wm fm).2.2.1 v) ∧
      ∀ w ∈ (rviewsLoop n s wm fm).2.2.1.map Prod.fst, w ∈ wm.map Prod.fst ∨
        ∃ v ∈ (rviewsLoop n s wm fm).1, mapFind (rviewsLoop n s wm fm).2.2.1 w = some v.word
  | 0, s, wm, fm, h => ⟨h, fun _ _ h => h, rfl, by simp [rviewsLoop], fun w hw => .inl hw⟩
  | n + 1, s, wm, fm, h => by
    rw [rviewsLoop]
    simp only []
    split
    · refine ⟨h.skip (((ignore_suffix _ _).trans (str_suffix _)).trans (str_suffix _)) ?_, fun _ _ h => h, by simp, ?_, fun w hw => .inl hw⟩
      · intro hu
        exact ignore_utf8 (str_utf8 (str_utf8 hu).2).2
      · intro v hv
        exact .inr (List.eq_of_mem_replicate hv)
    · rename_i hf
      obtain ⟨h1, h2, h3, h5⟩ := h.word ht (by simpa using hf)
      obtain ⟨k1, k2, k3, k4, k5⟩ := rviewsLoop_any ht n _ _ (intern fm ((s.str []).2.str []).1).2 h1
      refine ⟨k1, h2.trans k2, by simp only [List.length_cons, k3], ?_, ?_⟩
      · intro v hv
        rcases List.mem_cons.1 hv with rfl | hv
        · exact .inl ⟨_, k2 _ _ h3⟩
        · exact k4 v hv
      · intro w hw
        rcases k5 w hw with hw | ⟨v, hv, e⟩
        · rcases h5 w hw with hw | rfl
          · exact .inl hw
          · exact .inr ⟨_, List.mem_cons_self, k2 _ _ h3⟩
        · exact .inr ⟨v, List.mem_cons_of_mem _ hv, e⟩

theorem rglyphsLoop_any {t : List Nat} (ht : t.length < W32) : ∀ (fuel : Nat) (s : IS) (wm fm : StrMap) (acc : List (List View)),
    Reading t s wm → s.rest.length < fuel → (∀ l ∈ acc, ∀ v ∈ l, Numbered wm v) →
    (∀ w ∈ wm.map Prod.fst, ∃ l ∈ acc, ∃ v ∈ l, mapFind wm w = some v.word) →
    ∃ gs s' wm' fm', rglyphsLoop fuel s wm fm acc = .ok (gs, s', wm', fm') ∧ Reading t s' wm' ∧
      (∀ l ∈ gs, ∀ v ∈ l, Numbered wm' v) ∧ ∀ w ∈ wm'.map Prod.fst, ∃ l ∈ gs, ∃ v ∈ l, mapFind wm' w = some v.word
  | 0, _, _, _, _, _, hf, _, _ => by omega
  | fuel + 1, s, wm, fm, acc, h, hf, ha, hk => by
    rw [rglyphsLoop]
    simp only []
    have h1 := h.skip (ignore_suffix s 10) ignore_utf8
    split
    · exact ⟨_, _, _, _, rfl, h1, ha, hk⟩
    · have h2 := h1.skip (uint_suffix (W32 - 1) (s.ignore 10) 0) uint_utf8
      split
      · exact ⟨_, _, _, _, rfl, h2, ha, hk⟩
      · rename_i hu
        obtain ⟨k1, k2, k3, k4, k5⟩ := rviewsLoop_any ht ((s.ignore 10).uint (W32 - 1) 0).1 _ wm fm h2
        refine rglyphsLoop_any ht fuel _ _ _ _ k1 ?_ ?_ ?_
        · have a := (uint_lt (m := W32 - 1) (s := s.ignore 10) (o := 0) (by simpa using hu)).1
          have b := ignore_le s 10
          have c := rviewsLoop_le ((s.ignore 10).uint (W32 - 1) 0).1 ((s.ignore 10).uint (W32 - 1) 0).2 wm fm
          exact Nat.lt_of_le_of_lt c (by omega)
        · intro l hl v hv
          rcases List.mem_append.1 hl with hl | hl
          · exact (ha l hl v hv).mono k2
          · simp only [List.mem_singleton] at hl
            subst hl
            exact k4 v hv
        · intro w hw
          rcases k5 w hw with hw | ⟨v, hv, e⟩
          · obtain ⟨l, hl, v, hv, e⟩ := hk w hw
            exact ⟨l, List.mem_append_left _ hl, v, hv, k2 _ _ e⟩
          · exact ⟨_, List.mem_append_right _ (List.mem_singleton.2 rfl), v, hv, e⟩

theorem reading_start (t : List Nat) : Reading t (IS.of t) [] :=
  ⟨mapOk_nil, List.suffix_refl _, by simp [IS.of], by simp, fun h => h⟩

/-- The words of the views, when some word was read: views without a word of their own have that with the number 0. -/
theorem numbered_words {wm : StrMap} (h : MapOk wm) (hne : wm ≠ []) (gs : List (List View))
    (hg : ∀ l ∈ gs, ∀ v ∈ l, Numbered wm v) :
    ∃ us : List (List (List Nat × Nat)), (∀ g ∈ us, ∀ v ∈ g, v.1 ∈ wm.map Prod.fst) ∧
      gs = us.map (List.map fun v => ⟨idOf wm v.1, v.2⟩) := by
  have h0 : ∃ w, mapFind wm w = some 0 := by
    have : 0 ∈ wm.map Prod.snd := h.vals.mem_iff.2 (by
      rw [List.mem_range]
      exact List.length_pos_iff.2 hne)
    obtain ⟨p, hp, e⟩ := List.mem_map.1 this
    refine ⟨p.1, mapFind_of_mem h.sorted.nodup ?_⟩
    rw [← e]
    exact hp
  have hf : ∀ v : View, Numbered wm v → ∃ w, mapFind wm w = some v.word := by
    rintro v (h | rfl)
    · exact h
    · exact h0
  clear h0
  induction gs with
  | nil => exact ⟨[], by simp, rfl⟩
  | cons l gs ih =>
    obtain ⟨us, h1, h2⟩ := ih fun x hx => hg x (by simp [hx])
    have : ∀ l : List View, (∀ v ∈ l, Numbered wm v) →
        ∃ u : List (List Nat × Nat), (∀ v ∈ u, v.1 ∈ wm.map Prod.fst) ∧ l = u.map fun v => ⟨idOf wm v.1, v.2⟩ := by
      intro l hl
      induction l with
      | nil => exact ⟨[], by simp, rfl⟩
      | cons v l ih =>
        obtain ⟨u, h1, h2⟩ := ih fun x hx => hl x (by simp [hx])
        obtain ⟨w, hw⟩ := hf v (hl v (by simp))
        refine ⟨(w, v.font) :: u, ?_, ?_⟩
        · intro x hx
          rcases List.mem_cons.1 hx with rfl | hx
          · exact mapFind_isSome.1 (by rw [hw]; rfl)
          · exact h1 x hx
        · rw [List.map_cons, ← h2]
          simp only [idOf, hw, Option.getD_some]
    obtain ⟨u, h3, h4⟩ := this l (hg l (by simp))
    refine ⟨u :: us, ?_, by rw [List.map_cons, ← h2, ← h4]⟩
    intro g hg'
    rcases List.mem_cons.1 hg' with rfl | hg'
    · exact h3
    · exact h1 g hg'

/-- Without a word a view cannot be numbered anew. -/
theorem reindexAll_none : ∀ (gs : List (List View)), (∃ l ∈ gs, l ≠ []) → reindexAll [] gs = .ub
  | [], h => by simp at h
  | [] :: gs, h => by
    have : ∃ l ∈ gs, l ≠ [] := by
      obtain ⟨l, hl, hn⟩ := h
      rcases List.mem_cons.1 hl with rfl | hl
      · exact absurd rfl hn
      · exact ⟨l, hl, hn⟩
    unfold reindexAll reindexViews
    rw [Res.ok_bind, reindexAll_none gs this]
    rfl
  | (v :: l) :: gs, h => by
    unfold reindexAll reindexViews
    rfl

/-- What the loader does with any text: `gs` are the views as they were read, with the numbers of the words. -/
theorem rglyphsRead_any {t : List Nat} (ht : t.length < W32) :
    ∃ (gs : List (List View)) (s : IS) (wm : StrMap), Reading t s wm ∧
      rglyphsRead (IS.of t) [] = (do let g ← finishGlyphs gs wm; return (g, s)) ∧
      ((wm = [] ∧ (∃ l ∈ gs, l ≠ []) ∧ finishGlyphs gs wm = .ub) ∨
       (wm = [] ∧ (∀ l ∈ gs, l = []) ∧ finishGlyphs gs wm = .ok ⟨gs, [], 0⟩) ∨
       (∃ w, (wm.map Prod.fst).getLast? = some w ∧ w.length % 4 = 0 ∧ finishGlyphs gs wm = .ub) ∨
       (∃ (us : List (List (List Nat × Nat))) (b : List (Option Nat)), (∀ g ∈ us, ∀ v ∈ g, v.1 ∈ wm.map Prod.fst) ∧
        gs = us.map (List.map fun v => ⟨idOf wm v.1, v.2⟩) ∧ (∀ w ∈ wm.map Prod.fst, ∃ g ∈ us, ∃ v ∈ g, v.1 = w) ∧
        (∃ w, (wm.map Prod.fst).getLast? = some w ∧ w.length % 4 ≠ 0) ∧
        finishGlyphs gs wm = .ok ⟨us.map (List.map fun v => ⟨place (wm.map Prod.fst) v.1, v.2⟩), b, ((wm.map Prod.fst).map room).sum⟩ ∧
        Blocks (wm.map Prod.fst) b)) := by
  obtain ⟨gs, s, wm, fm, e, h, hn, hused⟩ := rglyphsLoop_any ht (t.length + 1) (IS.of t) [] [] [] (reading_start t) (by simp [IS.of]) (by simp)
    (by simp)
  refine ⟨gs, s, wm, h, ?_, ?_⟩
  · unfold rglyphsRead
    show (do let r ← rglyphsLoop (t.length + 1) (IS.of t) [] [] []; _) = _
    rw [e, Res.ok_bind]
  · by_cases hw : wm = []
    · subst hw
      by_cases hv : ∃ l ∈ gs, l ≠ []
      · refine .inl ⟨rfl, hv, ?_⟩
        unfold finishGlyphs reindexLoop
        rw [Res.ok_bind]
        show (do let gs ← reindexAll [] gs; _) = _
        rw [reindexAll_none gs hv]
        rfl
      · have hv' : ∀ l ∈ gs, l = [] := by
          intro l hl
          apply Classical.byContradiction
          intro hne
          exact hv ⟨l, hl, hne⟩
        refine .inr (.inl ⟨rfl, hv', ?_⟩)
        unfold finishGlyphs reindexLoop
        rw [Res.ok_bind]
        show (do let gs ← reindexAll [] gs; _) = _
        have e2 : reindexAll [] gs = .ok gs := by
          rw [reindexAll_ok (f := fun _ => 0) gs (by intro g hg x hx; rw [hv' g hg] at hx; simp at hx)]
          congr 1
          conv => rhs; rw [← List.map_id gs]
          apply List.map_congr_left
          intro l hl
          rw [hv' l hl]
          rfl
        rw [e2]
        rfl
    · have hsz : ((wm.map Prod.fst).map room).sum < W32 := by
        have := h.size
        omega
      obtain ⟨us, hu, rfl⟩ := numbered_words h.ok hw gs hn
      obtain ⟨w, hl⟩ : ∃ w, (wm.map Prod.fst).getLast? = some w := by
        cases hg : (wm.map Prod.fst).getLast? with
        | none =>
          rw [List.getLast?_eq_none_iff, List.map_eq_nil_iff] at hg
          exact absurd hg hw
        | some w => exact ⟨w, rfl⟩
      by_cases h4 : w.length % 4 = 0
      · exact .inr (.inr (.inl ⟨w, hl, h4, finishGlyphs_ub h.ok hsz hl h4 us hu⟩))
      · obtain ⟨b, k1, k2⟩ := finishGlyphs_ok h.ok hsz (by
          intro w' hw'
          rw [hl, Option.some.injEq] at hw'
          rwa [← hw']) us hu
        refine .inr (.inr (.inr ⟨us, b, hu, rfl, ?_, ⟨w, hl, h4⟩, k1, k2⟩))
        intro w hw
        obtain ⟨l, hl, v, hv, e⟩ := hused w hw
        obtain ⟨u, hu1, rfl⟩ := List.mem_map.1 hl
        obtain ⟨p, hp, rfl⟩ := List.mem_map.1 hv
        refine ⟨u, hu1, p, hp, ?_⟩
        refine idOf_inj h.ok (hu u hu1 p hp) hw ?_
        show idOf wm p.1 = idOf wm w
        conv => rhs; unfold idOf
        rw [e]
        rfl

/-- The glyphs `g` loaded from the text `t`, with the words `ws`. -/
structure Loaded (t : List Nat) (g : RGlyphs) (ws : List (List Nat)) : Prop where
  sorted : Increasing ws
  words : ∀ w ∈ ws, Token w ∧ w <:+: t ∧ (Utf8 t → Utf8 w)
  used : ∀ w ∈ ws, ∃ vs ∈ g.views, ∃ v ∈ vs, v.word = place ws w
  views : ∀ vs ∈ g.views, ∀ v ∈ vs, ∃ w ∈ ws, v.word = place ws w
  blocks : Blocks ws g.buf
  bufSz : g.bufSz = (ws.map room).sum
  size : (ws.map room).sum ≤ t.length

theorem loadGlyphs_loaded {t : List Nat} (ht : t.length < W32) {g : RGlyphs} (h : loadGlyphs (some t) = .ok g) :
    ∃ ws, Loaded t g ws := by
  obtain ⟨gs, s, wm, hr, e, hc⟩ := rglyphsRead_any ht
  unfold loadGlyphs openText at h
  simp only [Res.ok_bind] at h
  rw [e] at h
  have hsz := hr.size
  rcases hc with ⟨_, _, hc⟩ | ⟨hw, hg, hc⟩ | ⟨_, _, _, hc⟩ | ⟨us, b, hus, _, hused, _, hc, hb⟩
  · rw [hc] at h
    cases h
  · rw [hc] at h
    obtain ⟨_, e1, h⟩ := Res.bind_eq_ok.1 h
    cases e1
    obtain ⟨_, _, h⟩ := Res.bind_eq_ok.1 h
    cases h
    refine ⟨[], List.Pairwise.nil, by simp, by simp, ?_, .nil, rfl, by simp⟩
    intro vs hvs v hv
    rw [hg vs hvs] at hv
    simp at hv
  · rw [hc] at h
    cases h
  · rw [hc] at h
    obtain ⟨_, e1, h⟩ := Res.bind_eq_ok.1 h
    cases e1
    obtain ⟨_, _, h⟩ := Res.bind_eq_ok.1 h
    cases h
    refine ⟨wm.map Prod.fst, hr.ok.sorted, hr.words, ?_, ?_, hb, rfl, by omega⟩
    · intro w hw
      obtain ⟨u, hu, p, hp, rfl⟩ := hused w hw
      exact ⟨_, List.mem_map_of_mem hu, _, List.mem_map_of_mem hp, rfl⟩
    · intro vs hvs v hv
      obtain ⟨u, hu1, rfl⟩ := List.mem_map.1 hvs
      obtain ⟨p, hp, rfl⟩ := List.mem_map.1 hv
      exact ⟨p.1, hus u hu1 p hp, rfl⟩

theorem Loaded.getWord {t : List Nat} (ht : t.length < W32) {g : RGlyphs} {ws : List (List Nat)} (h : Loaded t g ws) {w : List Nat}
    (hw : w ∈ ws) : getWord g.buf (place ws w) = .ok w ∧ wordSize g.buf (place ws w) = .ok w.length := by
  have hl := (h.words w hw).2.1.length_le
  have hh := (h.blocks.holds hw).1
  exact ⟨getWord_of hh (by omega), wordSize_of hh (by omega)⟩

/-- The words are those of the views. -/
theorem Loaded.mem_iff {t : List Nat} (ht : t.length < W32) {g : RGlyphs} {ws : List (List Nat)} (h : Loaded t g ws) (w : List Nat) :
    w ∈ ws ↔ ∃ vs ∈ g.views, ∃ v ∈ vs, Ppocr.getWord g.buf v.word = .ok w := by
  constructor
  · intro hw
    obtain ⟨vs, hvs, v, hv, e⟩ := h.used w hw
    exact ⟨vs, hvs, v, hv, by rw [e]; exact (h.getWord ht hw).1⟩
  · rintro ⟨vs, hvs, v, hv, e⟩
    obtain ⟨w', hw', e'⟩ := h.views vs hvs v hv
    rw [e', (h.getWord ht hw').1, Res.ok.injEq] at e
    rwa [← e]

end Ppocr

import Verif.Spec.Line6
import Verif.Proofs.Text
import Verif.Proofs.Read6
import Verif.Proofs.ExtractText

/-! # Helper lemmas: the line and the text of `extract_text6` -/

namespace Ppocr
open Spec Props

/-! ### The text -/

theorem stops_small {c : Nat} (h : c ∈ stops) : c < 0x80 := by
  have : ∀ c ∈ stops, c < 0x80 := by decide
  exact this c h

theorem isSep6_map (l : List (List Nat)) : isSep6 (l.map encAll) = isStop l := by
  have hst : ([32, 39, 44, 46, 33, 63, 34] : List Nat) = stops := by decide
  match l with
  | [] => rfl
  | [] :: _ => rfl
  | [c] :: l =>
    have e1 : encAll [c] = enc c := by simp [encAll]
    rw [List.map_cons, e1]
    rcases enc_cases c with ⟨hc, he⟩ | hlong
    · rw [he]
      show decide (c ∈ _) = decide (c ∈ stops)
      rw [hst]
    · have hn : c ∉ stops := by
        intro hm
        have := stops_small hm
        rcases hlong with ⟨_, _, _⟩ | ⟨_, _, _⟩ | ⟨_, _⟩ <;> omega
      have h2 : isStop ([c] :: l) = false := by
        show decide (c ∈ stops) = false
        simpa using hn
      rw [h2]
      rcases hlong with ⟨_, _, he⟩ | ⟨_, _, he⟩ | ⟨_, he⟩ <;> rw [he] <;> rfl
  | (c :: d :: r) :: l =>
    have := encAll_length (c :: d :: r)
    rw [List.map_cons]
    match he : encAll (c :: d :: r) with
    | [] => rw [he] at this; simp at this
    | [x] => rw [he] at this; simp at this
    | x :: y :: z => rfl

theorem sepLoop6_ok : ∀ (ls : List (List (List Nat))) (out : List Nat),
    sepLoop6 (ls.map (List.map encAll)) out =
      (out ++ encAll ((ls.takeWhile isStop).flatMap sepText), (ls.dropWhile isStop).map (List.map encAll))
  | [], out => by simp [sepLoop6, encAll]
  | [] :: ls, out => by
    rw [List.map_cons, List.map_nil, sepLoop6, sepLoop6_ok, List.takeWhile_cons_of_pos (by rfl),
      List.dropWhile_cons_of_pos (by rfl), List.flatMap_cons, encAll_append, List.append_assoc]
    congr 2
  | (w :: l) :: ls, out => by
    have hsep : isSep6 (encAll w :: l.map encAll) = isStop (w :: l) := isSep6_map (w :: l)
    rw [List.map_cons, List.map_cons, sepLoop6, hsep]
    by_cases h : isStop (w :: l) = true
    · rw [if_pos h, sepLoop6_ok, List.takeWhile_cons_of_pos h, List.dropWhile_cons_of_pos h, List.flatMap_cons, encAll_append,
        List.append_assoc]
      simp [sepText, firstOf]
    · rw [if_neg h, List.takeWhile_cons_of_neg h, List.dropWhile_cons_of_neg h]
      simp [encAll]

/-- All candidates are valid and not empty. -/
def GoodWords (ls : List (List (List Nat))) : Prop := ∀ l ∈ ls, ∀ w ∈ l, w ≠ [] ∧ ∀ c ∈ w, Scalar c

theorem firsts_map : ∀ run : List (List (List Nat)),
    ((run.map (List.map encAll)).filterMap List.head?).flatten = encAll (run.flatMap firstOf)
  | [] => rfl
  | [] :: run => by
    have := firsts_map run
    rw [List.map_cons, List.map_nil, List.filterMap_cons, List.flatMap_cons]
    exact this
  | (w :: l) :: run => by
    have := firsts_map run
    simp only [List.map_cons, List.filterMap_cons, List.head?_cons, List.flatten_cons, List.flatMap_cons, encAll_append, this]
    rfl

theorem saying_seps (ws : List (List Nat)) : ∀ (a b : List (List (List Nat))), (∀ l ∈ a, isStop l = true) →
    saying ws (a ++ b) = a.flatMap sepText ++ saying ws b
  | [], b, _ => by simp
  | l :: a, b, h => by
    rw [List.cons_append, saying, dif_pos (h l (by simp)), saying_seps ws a b fun x hx => h x (by simp [hx])]
    simp

theorem textLoop6_ok {ws : List (List Nat)} {E : List FNode} {A : List (List Nat)} {n : Nat} (hd : SearchesOn E ws A n) :
    ∀ (fuel : Nat) (ls : List (List (List Nat))) (out : List Nat), GoodWords ls → (∀ l ∈ ls, ∀ w ∈ l, w ∈ A) → ls.length ≤ n →
      ls.length < fuel →
      (∀ l, ls.head? = some l → isStop l = false) →
      textLoop6 E fuel (ls.map (List.map encAll)) out = .ok (out ++ encAll (saying ws ls))
  | 0, ls, out, _, _, _, hf, _ => by omega
  | fuel + 1, [], out, _, _, _, hf, _ => by simp [textLoop6, saying, encAll]
  | fuel + 1, l :: ls, out, hg, hA, hn, hf, hs => by
    have hl : isStop l = false := hs l rfl
    obtain ⟨run, hrun⟩ : ∃ run, run = (l :: ls).takeWhile (!isStop ·) := ⟨_, rfl⟩
    obtain ⟨rest, hrest⟩ : ∃ rest, rest = (l :: ls).dropWhile (!isStop ·) := ⟨_, rfl⟩
    have hfun : ((fun l => !isSep6 l) ∘ List.map encAll) = fun l : List (List Nat) => !isStop l := by
      funext l
      simp only [Function.comp, isSep6_map]
    have e1 : ((l :: ls).map (List.map encAll)).takeWhile (fun l => !isSep6 l) = run.map (List.map encAll) := by
      rw [List.takeWhile_map, hfun, ← hrun]
    have e2 : ((l :: ls).map (List.map encAll)).dropWhile (fun l => !isSep6 l) = rest.map (List.map encAll) := by
      rw [List.dropWhile_map, hfun, ← hrest]
    have hcat : run ++ rest = l :: ls := by rw [hrun, hrest, List.takeWhile_append_dropWhile]
    have hne : run ≠ [] := by
      rw [hrun, List.takeWhile_cons_of_pos (by simpa using hl)]; simp
    have hlen : rest.length < (l :: ls).length := by
      have := congrArg List.length hcat
      rw [List.length_append] at this
      have := List.length_pos_iff.2 hne
      omega
    have hgr : GoodWords run := fun x hx => hg x (by rw [← hcat]; simp [hx])
    have hrl : run.length ≤ n := by
      have := congrArg List.length hcat
      rw [List.length_append] at this
      omega
    have h2 := hd (run.map fun l => l.map fun w => (w, [])) out (by simpa using hne) (by simpa using hrl) (by
        intro cands hc p hp
        obtain ⟨x, hx, rfl⟩ := List.mem_map.1 hc
        obtain ⟨w, hw, rfl⟩ := List.mem_map.1 hp
        exact ⟨hgr x hx w hw, hA x (by rw [← hcat]; simp [hx]) w hw⟩)
    have hm : ((run.map (List.map encAll)).map fun l => l.map (· ++ [0])) =
        ((run.map fun l => l.map fun w => (w, ([] : List Nat))).map (List.map mem)) := by
      simp [List.map_map, Function.comp_def, mem]
    have hf2 : ((run.map fun l => l.map fun w => (w, ([] : List Nat))).map (List.map Prod.fst)) = run := by
      simp [List.map_map, Function.comp_def]
    rw [hf2] at h2
    have hsay : saying ws (l :: ls) = runText ws run ++ ((rest.takeWhile isStop).flatMap sepText ++ saying ws (rest.dropWhile isStop)) := by
      rw [← saying_seps ws _ _ (fun x hx => List.all_eq_true.1 (List.all_takeWhile (p := isStop) (l := rest)) x hx),
        List.takeWhile_append_dropWhile, saying, dif_neg (by simp [hl]), ← hrun, ← hrest]
    have hnext : ∀ x, (rest.dropWhile isStop).head? = some x → isStop x = false := by
      intro x hx
      have := List.head?_dropWhile_not isStop rest
      rw [hx] at this
      simpa using this
    have h2 : disambiguous E ((run.map fun l => l.map fun w => (w, ([] : List Nat))).map (List.map mem)) out =
        .ok (promised spellCut ws run out) := by
      rw [h2]
      unfold promised
      cases preferred spellCut ws run <;> rfl
    have hstep : (if (promised spellCut ws run out).1 then (promised spellCut ws run out).2
        else (promised spellCut ws run out).2 ++ ((run.map (List.map encAll)).filterMap List.head?).flatten) =
        out ++ encAll (runText ws run) := by
      rw [firsts_map]
      unfold promised runText
      cases preferred spellCut ws run <;> rfl
    have hsub := (List.dropWhile_sublist (l := rest) isStop).length_le
    rw [textLoop6, if_neg (by simp)]
    simp only [e1, e2, hm, h2, Res.ok_bind, hstep, sepLoop6_ok]
    rw [textLoop6_ok hd fuel (rest.dropWhile isStop) _
      (fun x hx => hg x (by rw [← hcat]; exact List.mem_append_right _ ((List.dropWhile_sublist _).subset hx)))
      (fun x hx => hA x (by rw [← hcat]; exact List.mem_append_right _ ((List.dropWhile_sublist _).subset hx))) (by omega)
      (by simp only [List.length_cons] at hf hlen; omega) hnext, hsay]
    simp [encAll_append]

theorem text6_searched {ws : List (List Nat)} {E : List FNode} (ls : List (List (List Nat)))
    (hd : SearchesOn E ws (ls.dropWhile isStop).flatten (ls.dropWhile isStop).length) (hg : GoodWords ls) :
    text6 E (ls.map (List.map encAll)) = .ok (encAll (saying ws (ls.dropWhile isStop))) := by
  have hfun : (isSep6 ∘ List.map encAll) = isStop := by
    funext l
    simp only [Function.comp, isSep6_map]
  have hsub := (List.dropWhile_sublist (l := ls) isStop).length_le
  unfold text6
  rw [List.dropWhile_map, hfun, List.length_map, textLoop6_ok hd _ _ [] (fun x hx => hg x ((List.dropWhile_sublist _).subset hx))
    (fun l hl w hw => List.mem_flatten.2 ⟨l, hl, hw⟩) (Nat.le_refl _) (by omega) ?_, List.nil_append]
  intro x hx
  have := List.head?_dropWhile_not isStop ls
  rw [hx] at this
  simpa using this

theorem text6_ok {S : StdSort} {ws : List (List Nat)} {E : List FNode} (hd : DictOf S ws E) (ls : List (List (List Nat)))
    (hg : GoodWords ls) : text6 E (ls.map (List.map encAll)) = .ok (encAll (saying ws (ls.dropWhile isStop))) :=
  text6_searched ls (hd.searches _ _) hg

/-! ### The line -/

/-- `R` is the reading of the letter `a`. -/
def ReadAs (F : Image → Image → Res Letter6) (R : Image → Letter6) (a : Image) : Prop :=
  ∃ r, a.rotate90 = .ok r ∧ F a r = .ok (R a) ∧ (R a).cached.head? = some (R a).r2

/-- What is true between two letters: `seen` are the pictures before, `keys` the different ones in the order in which they
appeared. -/
structure Inv6 (F : Image → Image → Res Letter6) (R : Image → Letter6) (l : Line6) (seen keys : List Image) : Prop where
  full : ∀ a ∈ keys, a.Full
  sorted : Ordered l.cache
  mem : ∀ a (r : Nat), (a, r) ∈ l.cache ↔ keys[r]? = some a
  st : l.st = keys.map fun a => ((R a).r1, (R a).cached)
  same : ∀ a, a ∈ keys ↔ a ∈ seen
  read : ∀ a ∈ keys, ReadAs F R a

theorem inv6_init (F : Image → Image → Res Letter6) (R : Image → Letter6) : Inv6 F R ⟨[], [], [], [], []⟩ [] [] where
  full := by simp
  sorted := List.Pairwise.nil
  mem := by simp
  st := rfl
  same := by simp
  read := by simp

theorem letterStep6_ok {F : Image → Image → Res Letter6} {R : Image → Letter6} {i : Image} (wf : i.WF) (hi : i.bounds.w + 4 < W32)
    {l : Line6} {seen keys : List Image} {a : Image} {b : Box} {x : Nat} (inv : Inv6 F R l seen keys) (hw : 0 < b.w)
    (hh : 0 < b.h) (hx : b.x + b.w ≤ i.bounds.w) (hy : b.y + b.h ≤ i.bounds.h) (hs : i.section b.x b.y b.bounds = .ok a)
    (hxw : x ≤ i.bounds.w) :
    (ReadAs F R a → ∃ l' keys', letterStep6 F i x b l = .ok l' ∧ Inv6 F R l' (a :: seen) keys' ∧
      l'.amb = l.amb ++ ((if x + 4 < b.x then [[[32]]] else []) ++ [if a ∈ seen then (R a).cached else (R a).amb]) ∧
      l'.res1 = l.res1 ++ ((R a).r1 ++ [32]) ∧ l'.res2 = l.res2 ++ ((R a).r2 ++ [32])) ∧
    ((∃ r, a.rotate90 = .ok r ∧ F a r = .ub) → letterStep6 F i x b l = .ub) := by
  obtain ⟨a', e1, wa, _, _⟩ := C55_section i wf b.x b.y b.bounds hw hh
    (show b.w + b.x ≤ _ by omega) (show b.h + b.y ≤ _ by omega)
  rw [hs] at e1
  cases e1
  have hfull : ∀ p ∈ l.cache, p.1.Full := fun p hp =>
    inv.full _ (List.mem_of_getElem? ((inv.mem p.1 p.2).1 hp))
  have hamb : (if uadd x 4 < b.x then l.amb ++ [[[32]]] else l.amb) = l.amb ++ (if x + 4 < b.x then [[[32]]] else []) := by
    rw [uadd_eq (by omega)]
    split <;> simp
  unfold letterStep6
  rw [hs, Res.ok_bind]
  simp only [hamb]
  rcases cacheFind_ok a wa.full l.cache hfull inv.sorted with ⟨r, e, hm⟩ | ⟨e, hm⟩
  · rw [e, Res.ok_bind]
    have hk := (inv.mem a r).1 hm
    have hak : a ∈ keys := List.mem_of_getElem? hk
    obtain ⟨q, hq, hc, hf⟩ := inv.read a hak
    have hst : l.st[r]? = some ((R a).r1, (R a).cached) := by
      rw [inv.st, List.getElem?_map, hk]; rfl
    constructor
    · intro _
      have hc0 : (R a).cached[0]? = some (R a).r2 := by
        rw [← List.head?_eq_getElem?]; exact hf
      simp only [rd_of_getElem? hst, Res.ok_bind, rd_of_getElem? hc0]
      refine ⟨_, keys, rfl, ⟨inv.full, inv.sorted, inv.mem, inv.st, ?_, inv.read⟩, ?_, ?_, ?_⟩
      · intro c
        rw [List.mem_cons, ← inv.same]
        constructor
        · intro h; exact .inr h
        · rintro (rfl | h)
          · exact hak
          · exact h
      · rw [if_pos ((inv.same a).1 hak), List.append_assoc]
      · exact List.append_assoc ..
      · exact List.append_assoc ..
    · rintro ⟨q', hq', hub⟩
      rw [hq] at hq'
      cases hq'
      rw [hc] at hub
      cases hub
  · rw [e, Res.ok_bind]
    have hak : a ∉ keys := by
      intro h
      obtain ⟨r, hr⟩ := List.getElem?_of_mem h
      exact hm (a, r) ((inv.mem a r).2 hr) rfl
    have hlen : l.st.length = keys.length := by rw [inv.st, List.length_map]
    constructor
    · intro hra
      obtain ⟨q, hq, hc, hf⟩ := id hra
      obtain ⟨m', e2, ho, hp⟩ := cacheEmplace_ok a wa.full l.st.length l.cache hfull inv.sorted hm
      simp only [hq, Res.ok_bind, hc, e2, if_pos]
      refine ⟨_, keys ++ [a], rfl, ⟨?_, ho, ?_, ?_, ?_, ?_⟩, ?_, ?_, ?_⟩
      · intro c hc
        rcases List.mem_append.1 hc with h | h
        · exact inv.full c h
        · rw [List.mem_singleton.1 h]; exact wa.full
      · intro c r
        rw [hp.mem_iff, List.mem_cons, inv.mem, Prod.mk.injEq, hlen]
        constructor
        · rintro (⟨rfl, rfl⟩ | h)
          · simp
          · rw [List.getElem?_append_left (List.getElem?_eq_some_iff.1 h).1]; exact h
        · intro h
          by_cases hr : r < keys.length
          · right
            rwa [List.getElem?_append_left hr] at h
          · left
            rw [List.getElem?_append_right (by omega)] at h
            by_cases h0 : r - keys.length = 0
            · rw [h0] at h
              simp only [List.getElem?_cons_zero, Option.some.injEq] at h
              exact ⟨h.symm, by omega⟩
            · rw [List.getElem?_eq_none (by simp; omega)] at h
              cases h
      · simp only []
        rw [inv.st]
        simp
      · intro c
        rw [List.mem_append, List.mem_singleton, List.mem_cons, inv.same]
        exact Or.comm
      · intro c hc
        rcases List.mem_append.1 hc with h | h
        · exact inv.read c h
        · rw [List.mem_singleton.1 h]; exact hra
      · rw [if_neg (fun h => hak ((inv.same a).2 h)), List.append_assoc]
      · exact List.append_assoc ..
      · exact List.append_assoc ..
    · rintro ⟨q, hq, hub⟩
      simp only [hq, Res.ok_bind, hub]
      rfl

theorem lineLoop6_run {F : Image → Image → Res Letter6} {R : Image → Letter6} {i : Image} (wf : i.WF) (hi : i.bounds.w + 4 < W32) :
    ∀ (fuel x : Nat) (bs : List Box) (as : List Image) (l : Line6) (seen keys : List Image),
      segmentFrom i fuel x = .ok bs →
      (∀ b ∈ bs, 0 < b.w ∧ 0 < b.h ∧ b.x + b.w ≤ i.bounds.w ∧ b.y + b.h ≤ i.bounds.h) →
      Pictures i bs as →
      (∀ a ∈ as, ReadAs F R a ∨ ∃ r, a.rotate90 = .ok r ∧ F a r = .ub) →
      Inv6 F R l seen keys → x ≤ i.bounds.w →
      ((∀ a ∈ as, ReadAs F R a) → ∃ l', lineLoop6 F i fuel x l = .ok l' ∧
        l'.amb = l.amb ++ withGaps x bs (letterWords R seen as) ∧ l'.res1 = l.res1 ++ eachSpaced (fun a => (R a).r1) as ∧
        l'.res2 = l.res2 ++ eachSpaced (fun a => (R a).r2) as) ∧
      ((∃ a ∈ as, ∃ r, a.rotate90 = .ok r ∧ F a r = .ub) → lineLoop6 F i fuel x l = .ub) := by
  intro fuel
  induction fuel with
  | zero => intro x bs as l seen keys h; simp [segmentFrom] at h
  | succ fuel ih =>
    intro x bs as l seen keys h hb hp hr inv hxw
    unfold segmentFrom at h
    obtain ⟨b, h1, h⟩ := Res.bind_eq_ok.1 h
    unfold lineLoop6
    rw [h1, Res.ok_bind]
    by_cases ht : b.truthy = true
    · rw [if_pos ht] at h ⊢
      obtain ⟨bs', h2, h⟩ := Res.bind_eq_ok.1 h
      cases h
      cases as with
      | nil => exact absurd hp (by simp [Pictures])
      | cons a as =>
        obtain ⟨hp1, hp2⟩ := hp
        obtain ⟨b1, b2, b3, b4⟩ := hb b (by simp)
        obtain ⟨k1, k2⟩ := letterStep6_ok wf hi inv b1 b2 b3 b4 hp1 hxw
        rw [uadd_eq (by have := wf.w_lt; omega)] at h2 ⊢
        rcases hr a (by simp) with hra | hua
        · obtain ⟨l1, keys1, e1, inv1, f1, f2, f3⟩ := k1 hra
          rw [e1, Res.ok_bind]
          obtain ⟨m1, m2⟩ := ih (b.x + b.w) bs' as l1 (a :: seen) keys1 h2 (fun c hc => hb c (by simp [hc])) hp2
            (fun c hc => hr c (by simp [hc])) inv1 b3
          constructor
          · intro hall
            obtain ⟨l2, e2, g1, g2, g3⟩ := m1 fun c hc => hall c (by simp [hc])
            refine ⟨l2, e2, ?_, ?_, ?_⟩
            · rw [g1, f1, letterWords, withGaps]; simp
            · rw [g2, f2]; simp [eachSpaced]
            · rw [g3, f3]; simp [eachSpaced]
          · rintro ⟨c, hc, hcu⟩
            rcases List.mem_cons.1 hc with rfl | hc
            · obtain ⟨r, hr1, hr2⟩ := hcu
              obtain ⟨r', hr1', hr2', _⟩ := hra
              rw [hr1] at hr1'; cases hr1'
              rw [hr2] at hr2'; cases hr2'
            · exact m2 ⟨c, hc, hcu⟩
        · rw [k2 hua, Res.ub_bind]
          refine ⟨fun hall => ?_, fun _ => rfl⟩
          obtain ⟨r, hr1, hr2⟩ := hua
          obtain ⟨r', hr1', hr2', _⟩ := hall a (by simp)
          rw [hr1] at hr1'; cases hr1'
          rw [hr2] at hr2'; cases hr2'
    · rw [if_neg ht] at h ⊢
      cases h
      cases as with
      | cons a as => exact absurd hp (by simp [Pictures])
      | nil => exact ⟨fun _ => ⟨l, rfl, by simp [withGaps], by simp [eachSpaced], by simp [eachSpaced]⟩, by simp⟩

end Ppocr

import Verif.Proofs.Disambiguouser
import Verif.Spec.AnyDict

/-! # Lemmas on the search in an arbitrary dictionary (C112) -/

namespace Ppocr
open Spec

/-! ## One step -/

theorem partitionPoint_within (p : Nat → Res Bool) : ∀ (fuel first len : Nat), len < fuel →
    (∀ k, first ≤ k → k < first + len → ∃ b, p k = .ok b) →
    ∃ r, partitionPoint p fuel first len = .ok r ∧ first ≤ r ∧ r ≤ first + len
  | 0, _, _, h, _ => by omega
  | fuel + 1, first, len, h, hp => by
    unfold partitionPoint
    by_cases h0 : len = 0
    · rw [if_pos h0]; exact ⟨first, rfl, by omega, by omega⟩
    · rw [if_neg h0]
      obtain ⟨b, eb⟩ := hp (first + len / 2) (by omega) (by omega)
      simp only []
      rw [eb, Res.ok_bind]
      cases b with
      | true =>
        obtain ⟨r, e, h1, h2⟩ := partitionPoint_within p fuel (first + len / 2 + 1) (len - len / 2 - 1) (by omega)
          (fun k h1 h2 => hp k (by omega) (by omega))
        exact ⟨r, e, by omega, by omega⟩
      | false =>
        obtain ⟨r, e, h1, h2⟩ := partitionPoint_within p fuel first (len / 2) (by omega)
          (fun k h1 h2 => hp k (by omega) (by omega))
        exact ⟨r, e, by omega, by omega⟩

theorem rd_lt {α : Type} {l : List α} {k : Nat} (h : k < l.length) : ∃ a, l[k]? = some a ∧ rd l k = .ok a :=
  ⟨l[k], List.getElem?_eq_getElem h, rd_of_getElem? (List.getElem?_eq_getElem h)⟩

theorem findNode_within {E : List FNode} {r : FRange} (h : r.1 + r.2 ≤ E.length) (c : Nat) :
    findNode E r c = .ok none ∨ ∃ p f, findNode E r c = .ok (some p) ∧ E[p]? = some f ∧ r.1 ≤ p ∧ p < r.1 + r.2 := by
  unfold findNode lowerBound
  obtain ⟨p, e, h1, h2⟩ := partitionPoint_within (fun k => do
    let f ← rd E k
    return decide (f.x < c)) (r.2 + 1) r.1 r.2 (by omega) (by
      intro k _ hk
      obtain ⟨f, _, ef⟩ := rd_lt (l := E) (k := k) (by omega)
      exact ⟨_, by rw [ef, Res.ok_bind]; rfl⟩)
  rw [e, Res.ok_bind]
  by_cases hp : p = r.1 + r.2
  · rw [if_pos hp]; exact .inl rfl
  · rw [if_neg hp]
    obtain ⟨f, e1, ef⟩ := rd_lt (l := E) (k := p) (by omega)
    rw [ef, Res.ok_bind]
    by_cases hx : f.x = c
    · rw [if_pos hx]; exact .inr ⟨p, f, rfl, e1, h1, by omega⟩
    · rw [if_neg hx]; exact .inl rfl

theorem findNode_none_empty (E : List FNode) (lo c : Nat) : findNode E (lo, 0) c = .ok none := by
  unfold findNode lowerBound partitionPoint
  rw [if_pos rfl, Res.ok_bind, if_pos (by simp)]

theorem kidsRange_inside {E : List FNode} (hE : StaysInside E) {p : Nat} {f : FNode} (h : E[p]? = some f) (h0 : f.count ≠ 0) :
    kidsRange E p = .ok (p + f.pos, f.count) := by
  unfold kidsRange mkRange
  rw [rd_of_getElem? h, Res.ok_bind, if_pos (hE.kids p f h h0)]

/-! ## The words that a dictionary accepts -/

/-- The word is accepted from the range on. -/
def accepts (E : List FNode) (r : FRange) (w : List Nat) : Bool :=
  match flatDescend E r w with
  | .ok (some f) => f.term
  | _ => false

theorem accepts_none {E : List FNode} {r : FRange} {c : Nat} (h : findNode E r c = .ok none) (l : List Nat) : accepts E r (c :: l) = false := by
  unfold accepts
  cases l with
  | nil => rw [flatDescend, h]; rfl
  | cons d l => rw [flatDescend, h]; rfl

theorem accepts_one {E : List FNode} {r : FRange} {c p : Nat} {f : FNode} (h : findNode E r c = .ok (some p)) (e : E[p]? = some f) :
    accepts E r [c] = f.term := by
  unfold accepts
  rw [flatDescend, h, Res.ok_bind]
  simp only []
  rw [rd_of_getElem? e, Res.ok_bind]
  rfl

theorem accepts_cons {E : List FNode} {r r' : FRange} {c p : Nat} (h : findNode E r c = .ok (some p)) (e : kidsRange E p = .ok r')
    {l : List Nat} (hl : l ≠ []) : accepts E r (c :: l) = accepts E r' l := by
  cases l with
  | nil => exact absurd rfl hl
  | cons d l =>
    unfold accepts
    rw [flatDescend, h, Res.ok_bind]
    simp only []
    rw [e, Res.ok_bind]

theorem accepts_leaf {E : List FNode} {r : FRange} {c p : Nat} {f : FNode} (h : findNode E r c = .ok (some p)) (e : E[p]? = some f)
    (h0 : f.count = 0) {l : List Nat} (hl : l ≠ []) : accepts E r (c :: l) = false := by
  by_cases hr : p + f.pos + f.count ≤ E.length
  · rw [accepts_cons h (r' := (p + f.pos, f.count)) (by
      unfold kidsRange mkRange
      rw [rd_of_getElem? e, Res.ok_bind, if_pos hr]) hl]
    cases l with
    | nil => exact absurd rfl hl
    | cons d l => rw [h0]; exact accepts_none (findNode_none_empty E _ d) l
  · cases l with
    | nil => exact absurd rfl hl
    | cons d l =>
      unfold accepts
      rw [flatDescend, h, Res.ok_bind]
      simp only []
      unfold kidsRange mkRange
      rw [rd_of_getElem? e, Res.ok_bind, if_neg hr]
      rfl

/-! ## The search -/

/-- The first choice for the rest of the table that completes the candidate `cs` to a word for which `L` holds. -/
def completionL (L : List Nat → Bool) (cs : List Nat) (rest : List (List (List Nat))) : Option (List Nat) :=
  (((choices rest).find? fun ch => L ((joined cs ch).map packed))).map (joined cs)

/-- The first choice that spells a word for which `L` holds. -/
def choiceL (L : List Nat → Bool) (table : List (List (List Nat))) : Option (List Nat) :=
  ((choices table).find? fun ch => L ((spellCut ch).map packed)).map spellCut

/-- What `disambiguous_impl` does for the rest of the table. -/
def NextAny (E : List FNode) (next : FRange → List Nat → Res (Bool × List Nat)) (rest : List (List (List Nat))) : Prop :=
  ∀ (r : FRange) (out : List Nat), r.1 + r.2 ≤ E.length → next r out = .ok (outcome out (choiceL (accepts E r) rest))

theorem utfChar_any {E : List FNode} (hE : StaysInside E) {next : FRange → List Nat → Res (Bool × List Nat)}
    {rest : List (List (List Nat))} (hnext : rest ≠ [] → NextAny E next rest)
    (hrest : ∀ cands ∈ rest, ∀ c ∈ cands, c ≠ []) {src tail : List Nat} :
    ∀ (cs : List Nat) (c fuel : Nat) (r : FRange) (pos : Nat) (out : List Nat),
      (∀ d ∈ c :: cs, Scalar d) → cs.length < fuel → src.drop pos = encAll cs ++ 0 :: tail → r.1 + r.2 ≤ E.length →
      utfChar E rest.isEmpty next src fuel r (packed c) pos out = .ok (outcome out (completionL (accepts E r) (c :: cs) rest))
  | _, _, 0, _, _, _, _, h, _, _ => by omega
  | cs, c, fuel + 1, r, pos, out, hsc, hf, hd, hr => by
    have hc := hsc c (by simp)
    have hjc : ∀ ch, ∃ l, joined (c :: cs) ch = c :: l := by
      intro ch
      cases ch with
      | nil => exact ⟨[], rfl⟩
      | cons a ch => exact ⟨_, rfl⟩
    unfold utfChar
    rcases findNode_within hr (packed c) with hfind | ⟨p, f, hfind, e1, hp1, hp2⟩
    · rw [hfind, Res.ok_bind]
      simp only []
      have : completionL (accepts E r) (c :: cs) rest = none := by
        unfold completionL
        rw [List.find?_eq_none.2]
        · rfl
        · intro ch _
          obtain ⟨l, el⟩ := hjc ch
          rw [el, List.map_cons, accepts_none hfind]
          simp
      rw [this]
      rfl
    · rw [hfind, Res.ok_bind]
      simp only []
      rw [rd_of_getElem? e1, Res.ok_bind]
      by_cases hlast : rest = []
      · subst hlast
        rw [if_pos (show ([] : List (List (List Nat))).isEmpty = true from rfl), setC_packed _ hc]
        have hm : accepts E r [packed c] = f.term := accepts_one hfind e1
        unfold completionL choices
        have hj : joined (c :: cs) [] = [c] := rfl
        rw [List.find?_cons, hj, List.map_cons, List.map_nil, hm]
        cases f.term with
        | true => simp [outcome, hj, encAll]
        | false => simp [outcome]
      · have hemp : rest.isEmpty = false := by
          cases rest with
          | nil => exact absurd rfl hlast
          | cons a r => rfl
        rw [hemp, if_neg (by simp)]
        have hjoin : ∀ ch ∈ choices rest, joined (c :: cs) ch = c :: (cs ++ spellCut ch) ∧ (cs ++ spellCut ch).map packed ≠ [] := by
          intro ch hch
          obtain ⟨h1, h2⟩ := choices_nonempty hlast hrest ch hch
          cases ch with
          | nil => exact absurd rfl h1
          | cons a ch => exact ⟨rfl, by simp [h2]⟩
        by_cases hcnt : f.count = 0
        · rw [if_pos hcnt]
          have : completionL (accepts E r) (c :: cs) rest = none := by
            unfold completionL
            rw [List.find?_eq_none.2]
            · rfl
            · intro ch hch
              obtain ⟨h1, h2⟩ := hjoin ch hch
              rw [h1, List.map_cons, accepts_leaf hfind e1 hcnt h2]
              simp
          rw [this]
          rfl
        · rw [if_neg hcnt]
          have hk := kidsRange_inside hE e1 hcnt
          have hin := hE.kids p f e1 hcnt
          have hcomp : completionL (accepts E r) (c :: cs) rest =
              ((choices rest).find? fun ch => accepts E (p + f.pos, f.count) ((cs ++ spellCut ch).map packed)).map
                fun ch => c :: (cs ++ spellCut ch) := by
            unfold completionL
            rw [find?_congr' (q := fun ch => accepts E (p + f.pos, f.count) ((cs ++ spellCut ch).map packed))]
            · exact map_congr_find fun ch hch => (hjoin ch hch).1
            · intro ch hch
              obtain ⟨h1, h2⟩ := hjoin ch hch
              rw [h1, List.map_cons]
              exact accepts_cons hfind hk h2
          have hfin : ∀ (o : Option (List (List Nat))) (g : List (List Nat) → List Nat),
              (if (outcome out (o.map g)).1 = true then (true, setC (outcome out (o.map g)).2 (packed c))
                else outcome out (o.map g)) = outcome out (o.map fun ch => c :: g ch) := by
            intro o g
            cases o with
            | none => rfl
            | some ch =>
              simp only [Option.map_some, outcome]
              rw [if_pos trivial, setC_packed _ hc, encAll_cons, List.reverse_append, List.append_assoc]
          cases cs with
          | nil =>
            rw [utf8Next_zero (by simpa [encAll] using hd), Res.ok_bind, hk, Res.ok_bind,
              if_pos rfl, hnext hlast _ out hin, Res.ok_bind, hcomp]
            exact congrArg Res.ok (hfin ((choices rest).find? _) spellCut)
          | cons d ds =>
            rw [encAll_cons, List.append_assoc] at hd
            have hdsc := hsc d (by simp)
            have hdp := packed_pos hdsc
            rw [utf8Next_enc hdsc hd, Res.ok_bind, hk, Res.ok_bind, if_neg (by simp only []; omega)]
            have ih := utfChar_any hE hnext hrest ds d fuel (p + f.pos, f.count) (pos + (enc d).length) out
              (fun x hx => hsc x (List.mem_cons_of_mem _ hx)) (by simp at hf; omega) (drop_append hd) hin
            rw [hemp] at ih
            simp only []
            rw [ih, Res.ok_bind, hcomp]
            have hcomp2 : completionL (accepts E (p + f.pos, f.count)) (d :: ds) rest =
                ((choices rest).find? fun ch => accepts E (p + f.pos, f.count) ((d :: ds ++ spellCut ch).map packed)).map
                  fun ch => d :: ds ++ spellCut ch := by
              unfold completionL
              have hj : ∀ ch ∈ choices rest, joined (d :: ds) ch = d :: ds ++ spellCut ch := by
                intro ch hch
                obtain ⟨h1, h2⟩ := choices_nonempty hlast hrest ch hch
                cases ch with
                | nil => exact absurd rfl h1
                | cons a ch => rfl
              rw [find?_congr' (q := fun ch => accepts E (p + f.pos, f.count) ((d :: ds ++ spellCut ch).map packed))]
              · exact map_congr_find hj
              · intro ch hch
                rw [hj ch hch]
            rw [hcomp2]
            exact congrArg Res.ok (hfin ((choices rest).find? _) fun ch => d :: ds ++ spellCut ch)

theorem choiceL_cons (L : List Nat → Bool) (cands : List (List Nat)) (rest : List (List (List Nat))) :
    choiceL L (cands :: rest) = cands.findSome? fun c => completionL L c rest := by
  unfold choiceL choices
  rw [List.find?_flatMap]
  induction cands with
  | nil => rfl
  | cons c cands ih =>
    rw [List.findSome?_cons, List.findSome?_cons, List.find?_map]
    unfold completionL at ih ⊢
    have e : ((fun ch => L ((spellCut ch).map packed)) ∘ fun x => c :: x) = fun ch => L ((joined c ch).map packed) := by
      funext ch
      simp only [Function.comp_apply, spellCut_cons]
    rw [e]
    cases hf : (choices rest).find? fun ch => L ((joined c ch).map packed) with
    | none => exact ih
    | some ch => simp [spellCut_cons]

theorem disImpl_any {E : List FNode} (hE : StaysInside E) : ∀ (table : List (List (List Nat × List Nat))), table ≠ [] →
    (∀ cands ∈ table, ∀ p ∈ cands, GoodCand p) →
    NextAny E (disImpl E (table.map (List.map mem))) (table.map (List.map Prod.fst))
  | [], h, _ => absurd rfl h
  | cands :: rest, _, hg => by
    intro r out hr
    have hemp : (rest.map (List.map mem)).isEmpty = (rest.map (List.map Prod.fst)).isEmpty := by
      cases rest <;> rfl
    have hne : ∀ cs ∈ rest.map (List.map Prod.fst), ∀ c ∈ cs, c ≠ [] := by
      intro cs hcs c hc
      obtain ⟨l, hl, rfl⟩ := List.mem_map.1 hcs
      obtain ⟨p, hp, rfl⟩ := List.mem_map.1 hc
      exact (hg l (by simp [hl]) p hp).1
    rw [List.map_cons, List.map_cons, choiceL_cons]
    unfold disImpl
    apply tryCands_ok
    intro p hp
    obtain ⟨h1, h2⟩ := hg cands (by simp) p hp
    obtain ⟨c, cs, e⟩ : ∃ c cs, p.1 = c :: cs := by
      cases hh : p.1 with
      | nil => exact absurd hh h1
      | cons c cs => exact ⟨c, cs, rfl⟩
    rw [e] at h2
    have hd : (mem p).drop 0 = enc c ++ (encAll cs ++ 0 :: p.2) := by
      unfold mem
      rw [e, encAll_cons, List.append_assoc, List.drop_zero]
    rw [utf8Next_enc (h2 c (by simp)) hd, Res.ok_bind, hemp, e]
    apply utfChar_any hE _ hne cs c _ r _ out h2 _ (drop_append hd) hr
    · intro hrest
      exact disImpl_any hE rest (by intro h; subst h; exact hrest rfl) fun l hl q hq => hg l (by simp [hl]) q hq
    · have := encAll_length cs
      have := congrArg List.length hd
      simp only [List.drop_zero, List.length_append, List.length_cons] at this
      omega

/-- The words accepted from the first nodes on. -/
def acceptsAll (E : List FNode) (w : List Nat) : Bool :=
  match rootRange E with
  | .ok r => accepts E r w
  | _ => false

/-- The whole search. -/
theorem disambiguous_any {E : List FNode} (hE : StaysInside E) (table : List (List (List Nat × List Nat))) (htab : table ≠ [])
    (hg : ∀ cands ∈ table, ∀ p ∈ cands, GoodCand p) (out : List Nat) :
    disambiguous E (table.map (List.map mem)) out = .ok (match choiceL (acceptsAll E) (table.map (List.map Prod.fst)) with
      | none => (false, out)
      | some w => (true, out ++ encAll w)) := by
  unfold disambiguous
  cases E with
  | nil =>
    rw [if_pos (.inr rfl)]
    unfold choiceL
    rw [List.find?_eq_none.2 (by simp [acceptsAll, rootRange, rd])]
    rfl
  | cons f E =>
    have hroot : rootRange (f :: E) = .ok (0, f.pos) := by
      unfold rootRange mkRange
      rw [rd_of_getElem? (a := f) rfl, Res.ok_bind, if_pos (by rw [Nat.zero_add]; exact hE.root f rfl)]
    have hacc : acceptsAll (f :: E) = accepts (f :: E) (0, f.pos) := by
      funext w
      unfold acceptsAll
      rw [hroot]
    rw [if_neg (by simpa using htab), hroot, Res.ok_bind,
      disImpl_any hE table htab hg (0, f.pos) out (by rw [Nat.zero_add]; exact hE.root f rfl), Res.ok_bind, hacc]
    cases choiceL (accepts (f :: E) (0, f.pos)) (table.map (List.map Prod.fst)) with
    | none => rfl
    | some w =>
      simp only [outcome]
      rw [if_pos trivial, List.take_left, List.drop_left, List.reverse_reverse]
      rfl

/-! ## The words that matter -/

/-- Up to `n` letters with the candidates `A` are looked up in `E` as in the words `ws`. -/
def SearchesOn (E : List FNode) (ws : List (List Nat)) (A : List (List Nat)) (n : Nat) : Prop :=
  ∀ (table : List (List (List Nat × List Nat))) (out : List Nat), table ≠ [] → table.length ≤ n →
    (∀ cands ∈ table, ∀ p ∈ cands, GoodCand p ∧ p.1 ∈ A) →
    disambiguous E (table.map (List.map mem)) out = .ok (match preferred spellCut ws (table.map (List.map Prod.fst)) with
      | none => (false, out)
      | some ch => (true, out ++ encAll (spellCut ch)))

/-- All lists of at most `n` of the words. -/
def listsOf (A : List (List Nat)) : Nat → List (List (List Nat))
  | 0 => [[]]
  | n + 1 => [] :: (A.flatMap fun a => (listsOf A n).map (a :: ·))

theorem mem_listsOf {A : List (List Nat)} : ∀ (n : Nat) (l : List (List Nat)), l.length ≤ n → (∀ a ∈ l, a ∈ A) → l ∈ listsOf A n
  | 0, l, h, _ => by
    have : l = [] := List.length_eq_zero_iff.1 (by omega)
    simp [listsOf, this]
  | n + 1, [], _, _ => by simp [listsOf]
  | n + 1, a :: l, h, hA => by
    rw [listsOf]
    refine List.mem_cons_of_mem _ (List.mem_flatMap.2 ⟨a, hA a (by simp), List.mem_map.2 ⟨l, ?_, rfl⟩⟩)
    exact mem_listsOf n l (by simpa using h) fun x hx => hA x (by simp [hx])

theorem choices_length : ∀ {table : List (List (List Nat))} {ch : List (List Nat)}, ch ∈ choices table → ch.length = table.length
  | [], ch, h => by
    have : ch = [] := by simpa [choices] using h
    subst this
    rfl
  | cands :: rest, ch, h => by
    simp only [choices, List.mem_flatMap, List.mem_map] at h
    obtain ⟨d, _, ch', h', rfl⟩ := h
    simp [choices_length h']

/-- For up to `n` letters with the candidates `A` each dictionary is like a list of words. -/
theorem searchesOn_of_inside {E : List FNode} (hE : StaysInside E) (A : List (List Nat)) (n : Nat) : ∃ ws, SearchesOn E ws A n := by
  refine ⟨((listsOf A n).map spellCut).filter fun w => acceptsAll E (w.map packed), ?_⟩
  intro table out hne hn hg
  rw [disambiguous_any hE table hne (fun cands hc p hp => (hg cands hc p hp).1)]
  have : choiceL (acceptsAll E) (table.map (List.map Prod.fst)) =
      (preferred spellCut (((listsOf A n).map spellCut).filter fun w => acceptsAll E (w.map packed)) (table.map (List.map Prod.fst))).map
        spellCut := by
    unfold choiceL preferred
    rw [find?_congr']
    intro ch hch
    have hmem : spellCut ch ∈ (listsOf A n).map spellCut := by
      refine List.mem_map_of_mem (mem_listsOf n ch ?_ ?_)
      · rw [choices_length hch, List.length_map]; exact hn
      · intro c hc
        obtain ⟨l, hl, hcl⟩ := mem_choices hch c hc
        obtain ⟨cands, hcd, rfl⟩ := List.mem_map.1 hl
        obtain ⟨p, hp, rfl⟩ := List.mem_map.1 hcl
        exact (hg cands hcd p hp).2
    rw [eq_comm, Bool.eq_iff_iff]
    simp only [decide_eq_true_eq, List.mem_filter, hmem, true_and]
  rw [this]
  cases preferred spellCut (((listsOf A n).map spellCut).filter fun w => acceptsAll E (w.map packed)) (table.map (List.map Prod.fst)) <;> rfl

/-! ## The dictionaries that are made from words -/

theorem flatTrie_inside (t : Trie) (h : t.count < W32) : ∃ E, flatTrie t = .ok E ∧ StaysInside E := by
  obtain ⟨E, N, e, hi, hp⟩ := flatLoop_ok h (t.count + 1) _ _ _ 0 (flatInv_init t h) (by omega)
  have hN := hi.total_eq
  simp only [List.map_nil, List.sum_nil, Nat.add_zero] at hN
  refine ⟨E, e, ?_, ?_⟩
  · intro f hf
    have hlt := (List.getElem?_eq_some_iff.1 hf).1
    rw [hi.root (by rw [← hi.len]; exact hlt) f hf, hi.len, hN]
    exact size_le_count t
  · intro i f hf _
    have hlt := (List.getElem?_eq_some_iff.1 hf).1
    rw [hi.len] at hlt
    have hn := List.getElem?_eq_getElem hlt
    obtain ⟨_, _, h3⟩ := hi.same i _ f hn hf
    obtain ⟨h4, h5⟩ := hi.done i _ f hlt hn hf
    have h6 := h5.length_le
    rw [List.length_drop] at h6
    rw [hi.len, h3]
    unfold Trie.size
    omega

theorem dictOf_inside (S : StdSort) {ws : List (List Nat)} (hne : ∀ w ∈ ws, w ≠ []) (hs : ∀ w ∈ ws, ∀ c ∈ w, Scalar c)
    (hsz : (ws.map List.length).sum < W32) : ∃ E, dictOf S (ws.map encAll) = .ok E ∧ StaysInside E := by
  obtain ⟨l, e1, hi, hm'⟩ := sortedWords_ok S (ws.map (List.map packed))
  obtain ⟨t, e2, hl, hst, hc⟩ := trieOf_ok (ws := l) (by
    intro w hw
    obtain ⟨v, hv, rfl⟩ := List.mem_map.1 ((hm' w).1 hw)
    simpa using hne v hv) hi
  have hsum := sum_length_le hi.nodup fun w hw => (hm' w).1 hw
  have hmap : (ws.map (List.map packed)).map List.length = ws.map List.length := by
    rw [List.map_map]
    exact List.map_congr_left fun w _ => by simp
  rw [hmap] at hsum
  obtain ⟨E, e3, hin⟩ := flatTrie_inside t (by omega)
  refine ⟨E, ?_, hin⟩
  unfold dictOf
  rw [allCodes_ok hs, Res.ok_bind, e1, Res.ok_bind, e2, Res.ok_bind, e3]

end Ppocr

import Verif.Proofs.ExtractText
import Verif.Props.Ocr2

/-! # C56: the cache of letter images -/

namespace Ppocr.Props
open Ppocr Spec

section
variable {P : Type} [LawfulDbl P]

/-- The views found for a picture are those of glyphs. -/
theorem views_of_glyphs {s : Setup P} {val : Simple → Nat} {n : Nat} {img img90 : Image}
    (ok : SetupOk s val n img img90) (t : List (Nat × P)) :
    ∃ o, computeImage s t img img90 = .ok o ∧ ∀ v ∈ o.views, ∃ vs ∈ s.glyphs, v ∈ vs := by
  obtain ⟨U, _, _, S, o, hS, e, _, _, h⟩ := computeImage_ok s val n img img90 ok t
  refine ⟨o, e, ?_⟩
  have key : ∀ l : P, ∀ v ∈ viewsOf s.glyphs S l, ∃ vs ∈ s.glyphs, v ∈ vs := by
    intro l v hv
    unfold viewsOf at hv
    obtain ⟨p, hp, hv⟩ := List.mem_flatMap.1 hv
    have hlt : p.1 < s.glyphs.length := by rw [ok.glyphs]; exact hS.2 p (List.mem_filter.1 hp).1
    rw [List.getD_eq_getElem?_getD, List.getElem?_eq_getElem hlt] at hv
    exact ⟨_, List.getElem_mem hlt, hv⟩
  rcases h with ⟨_, _, _, h⟩ | ⟨_, _, h⟩
  · rw [h]; exact key _
  · rw [h]
    cases S with
    | nil => simp
    | cons b S => exact key _

/-- The words of all glyphs can be read. -/
def WordsRead (s : Setup P) (g : RGlyphs) : Prop :=
  ∀ vs ∈ s.glyphs, ∀ v ∈ vs, ∃ w, getWord g.buf v.word = .ok w

theorem readable_of {s : Setup P} {g : RGlyphs} {a r : Image} {val : Simple → Nat} {n : Nat} (wf : a.WF)
    (hw : 0 < a.bounds.w) (hh : 0 < a.bounds.h) (hs : 2 * (a.bounds.w * a.bounds.h) < W32) (hr : a.rotate90 = .ok r)
    (ok : SetupOk s val n a r) (hg : WordsRead s g) : Readable s g a where
  wf := wf
  w := hw
  h := hh
  small := hs
  compute := by
    intro r' e t
    rw [hr] at e
    cases e
    obtain ⟨o, e, _⟩ := views_of_glyphs ok t
    exact ⟨o, e⟩
  words := by
    intro vs e v hv
    obtain ⟨o, e', h⟩ := views_of_glyphs ok []
    unfold candidates at e
    rw [hr, Res.ok_bind, e', Res.ok_bind] at e
    cases e
    obtain ⟨ws, h1, h2⟩ := h v hv
    exact hg ws h1 v h2

/-- **C56**: for every image that is cut in letters of which each can be recognised, the loop of the program ends, and each
letter refers to a list of candidates that is what `compute_image` finds for its picture; two letters refer to the same list
exactly when they show the same picture; there is no other list, and the memory of the pictures is freed once. The boxes are
those of the segmentation and the spaces are before the letters that follow more than four blank columns. -/
theorem C56_same_list (s : Setup P) (g : RGlyphs) (i : Image) (wf : i.WF) (hw : 0 < i.bounds.w) (hh : 0 < i.bounds.h)
    (hsz : 2 * (i.bounds.w * i.bounds.h) + i.bounds.w + 4 < W32)
    (hrow : 1 < i.bounds.h ∨ ¬ BlankCol i (i.bounds.w - 1)) (hg : WordsRead s g)
    (hset : ∀ bs as, segment i = .ok bs → Pictures i bs as → ∀ a ∈ as,
      ∃ r val n, a.rotate90 = .ok r ∧ SetupOk s val n a r) :
    ∃ bs as l, segment i = .ok bs ∧ Pictures i bs as ∧ as.length = bs.length ∧
      lineLoop s g i (i.bounds.w + 1) 0 (Line.init P) = .ok l ∧
      l.boxes = bs ∧ l.spaces = gaps bs ∧ l.refs.length = bs.length ∧
      (∀ (k m r q : Nat) (a b : Image), as[k]? = some a → as[m]? = some b → l.refs[k]? = some r → l.refs[m]? = some q →
        (r = q ↔ a = b)) ∧
      (∀ (k r : Nat) (a : Image), as[k]? = some a → l.refs[k]? = some r →
        ∃ v, candidates s a = .ok v ∧ l.st[r]? = some v) ∧
      (∀ r, r < l.st.length → ∃ k : Nat, l.refs[k]? = some r) ∧ ∃ h, l.ctx.destroy l.heap = .ok h ∧ Dead h := by
  obtain ⟨bs, e, hlen, hbox, _⟩ := C13_segmentation_partial i wf hw hh (by omega) hrow
  have hin : ∀ b ∈ bs, 0 < b.w ∧ 0 < b.h ∧ b.x + b.w ≤ i.bounds.w ∧ b.y + b.h ≤ i.bounds.h := by
    intro b hb
    obtain ⟨⟨x0, c⟩, _⟩ := hbox b hb
    exact ⟨c.wpos, c.hpos, c.right, c.bottom⟩
  obtain ⟨as, hp, hal⟩ := pictures_exist wf bs hin
  have hread : ∀ a ∈ as, Readable s g a := by
    intro a ha
    obtain ⟨b, hb, hp1⟩ := pictures_box hp ha
    obtain ⟨b1, b2, b3, b4⟩ := hin b hb
    obtain ⟨c', e1, wc, hb, _⟩ := C55_section i wf b.x b.y b.bounds b1 b2 (show b.w + b.x ≤ _ by omega)
      (show b.h + b.y ≤ _ by omega)
    rw [hp1] at e1
    cases e1
    obtain ⟨r, val, n, e2, ok⟩ := hset bs as e hp a ha
    refine readable_of wc (by rw [hb]; exact b1) (by rw [hb]; exact b2) ?_ e2 ok hg
    rw [hb]
    have := Nat.mul_le_mul (show b.bounds.w ≤ i.bounds.w by show b.w ≤ _; omega)
      (show b.bounds.h ≤ i.bounds.h by show b.h ≤ _; omega)
    omega
  obtain ⟨l, keys, e2, inv, f1, f2⟩ := lineLoop_ok (s := s) (g := g) wf (by omega) (i.bounds.w + 1) 0 bs as
    (Line.init P) [] [] e hin hp hread (lineInv_init s) rfl (Nat.zero_le _) rfl
    (by show 0 + _ < _; have := wf.w_lt; omega) rfl
  rw [List.nil_append] at inv
  have f1 : l.boxes = bs := by rw [f1]; rfl
  refine ⟨bs, as, l, e, hp, hal, e2, f1, by rw [f2, f1], by rw [inv.refsLen, hal], ?_, ?_, ?_, ?_⟩
  · intro k m r q a b ha hb hr hq
    obtain ⟨r1, r2⟩ := inv.refs k r hr
    obtain ⟨q1, q2⟩ := inv.refs m q hq
    rw [ha] at r2
    rw [hb] at q2
    constructor
    · intro h
      rw [h, q2] at r2
      exact (Option.some.inj r2).symm
    · intro h
      have hnd := List.nodup_iff_pairwise_ne.1 inv.nodup
      rw [List.getElem?_eq_getElem r1] at r2
      rw [List.getElem?_eq_getElem q1] at q2
      have : keys[r] = keys[q] := by rw [Option.some.inj r2, Option.some.inj q2, h]
      exact (List.getElem_inj inv.nodup).1 this
  · intro k r a ha hr
    obtain ⟨r1, r2⟩ := inv.refs k r hr
    rw [ha] at r2
    exact inv.views r a r2
  · intro r hr
    have hrk : r < keys.length := by rw [inv.keysLen]; exact hr
    have hk := List.getElem?_eq_getElem hrk
    obtain ⟨k, hk1, hk2⟩ := List.mem_iff_getElem.1 (inv.seen _ (List.getElem_mem hrk))
    have hkr : k < l.refs.length := by rw [inv.refsLen]; exact hk1
    refine ⟨k, ?_⟩
    obtain ⟨q1, q2⟩ := inv.refs k _ (List.getElem?_eq_getElem hkr)
    rw [List.getElem?_eq_getElem hkr]
    rw [List.getElem?_eq_getElem q1, List.getElem?_eq_getElem hk1, hk2] at q2
    rw [(List.getElem_inj inv.nodup).1 (Option.some.inj q2)]
  · obtain ⟨j, cells, hc⟩ := inv.ctx
    exact inv_destroy hc

end

/-- A memory of zeros: every word in it is empty. -/
def zeroWords : RGlyphs := ⟨[], List.replicate 64 (some 0), 16⟩

/-- A bar, a point in the second row, a bar behind five blank columns, a point, a blank column. -/
def barsPoints : Image := ⟨⟨12, 2⟩, [120, 45, 45, 45, 45, 45, 45, 45, 120, 45, 45, 45,
                                    120, 45, 120, 45, 45, 45, 45, 45, 120, 45, 120, 45]⟩

/-- The bars share a list, and the points. -/
example : (do
    let l ← lineLoop (sampleSetup 4) zeroWords barsPoints 13 0 (Line.init Frac)
    return (l.refs, l.st, l.spaces, l.boxes)) =
    .ok ([0, 1, 0, 1], [[⟨1, 1⟩], [⟨1, 1⟩]], [2], [⟨0, 0, 1, 2⟩, ⟨2, 1, 1, 1⟩, ⟨8, 0, 1, 2⟩, ⟨10, 1, 1, 1⟩]) := by
  decide +kernel

end Ppocr.Props

import Verif.Model.ImageContext
import Verif.Proofs.Image

/-! # Lemmas on the buffer of the current letter -/

namespace Ppocr

/-- Nothing is allocated. -/
def Dead (h : Heap) : Prop := ∀ (j : Nat) (l : List (Option Pixel)), h[j]? ≠ some (some l)

/-- Block `b` with the cells `l` is the only one that is allocated. -/
def Only (h : Heap) (b : Nat) (l : List (Option Pixel)) : Prop :=
  h[b]? = some (some l) ∧ ∀ (j : Nat) (l' : List (Option Pixel)), h[j]? = some (some l') → j = b

/-- All that is allocated is what `data_` points to. -/
inductive Mem (h : Heap) : UPtr → List (Option Pixel) → Prop
  | null : Dead h → Mem h none []
  | block (b : Nat) (l : List (Option Pixel)) : Only h b l → Mem h (some ⟨b, 0⟩) l

/-- A place behind another one in the same block. -/
def shift (p : UPtr) (n : Nat) : UPtr := p.map fun p => ⟨p.block, p.off + n⟩

theorem free_none (h : Heap) : h.free none = .ok h := rfl

theorem shift_zero (p : UPtr) : shift p 0 = p := by cases p <;> rfl

theorem Mem.cells {h : Heap} {d : UPtr} {l : List (Option Pixel)} (m : Mem h d l) {n : Nat} (hn : n ≤ l.length) :
    h.cells (shift d n) = .ok (l.drop n) := by
  cases m with
  | null _ => simp [shift, Heap.cells]
  | block b l o => simp [shift, Heap.cells, o.1, hn]

theorem Mem.cells0 {h : Heap} {d : UPtr} {l : List (Option Pixel)} (m : Mem h d l) : h.cells d = .ok l := by
  have := m.cells (n := 0) (Nat.zero_le _)
  rwa [shift_zero] at this

theorem Mem.plus {h : Heap} {d : UPtr} {l : List (Option Pixel)} (m : Mem h d l) {n : Nat} (hn : n ≤ l.length) :
    h.plus d n = .ok (shift d n) := by
  rw [Heap.plus, m.cells0, Res.ok_bind, if_pos hn]; rfl

theorem Mem.put {h : Heap} {d : UPtr} {l : List (Option Pixel)} (m : Mem h d l) {n : Nat} {v : List Pixel}
    (hn : n + v.length ≤ l.length) :
    Mem (h.put (shift d n) v) d (l.take n ++ v.map some ++ l.drop (n + v.length)) := by
  cases m with
  | null hd =>
    simp only [List.length_nil, Nat.le_zero, Nat.add_eq_zero_iff] at hn
    have : v = [] := List.length_eq_zero_iff.1 hn.2
    subst this
    simp only [shift, Option.map_none, Heap.put, List.take_nil, List.map_nil, List.append_nil, List.drop_nil]
    exact .null hd
  | block b l o =>
    simp only [shift, Option.map_some, Nat.zero_add, Heap.put, o.1]
    apply Mem.block
    have hb : b < h.length := by
      have := o.1
      exact (List.getElem?_eq_some_iff.1 this).1
    constructor
    · rw [List.getElem?_set_self hb]
    · intro j l' hj
      by_cases e : b = j
      · exact e.symm
      · rw [List.getElem?_set_ne e] at hj
        exact o.2 j l' hj

theorem Mem.free {h : Heap} {d : UPtr} {l : List (Option Pixel)} (m : Mem h d l) :
    ∃ h', h.free d = .ok h' ∧ Dead h' := by
  cases m with
  | null hd => exact ⟨h, rfl, hd⟩
  | block b l o =>
    refine ⟨h.set b none, ?_, ?_⟩
    · simp only [Heap.free, if_true, o.1]
    · intro j l' hj
      by_cases e : b = j
      · subst e
        have hb : b < h.length := (List.getElem?_eq_some_iff.1 o.1).1
        rw [List.getElem?_set_self hb] at hj
        simp at hj
      · rw [List.getElem?_set_ne e] at hj
        exact e (o.2 j l' hj).symm

theorem Mem.realloc {h : Heap} {d : UPtr} {l : List (Option Pixel)} (m : Mem h d l) (n : Nat) :
    ∃ h', (h.alloc n).1.free d = .ok h' ∧ Mem h' (some (h.alloc n).2) (List.replicate n none) := by
  cases m with
  | null hd =>
    refine ⟨_, rfl, .block _ _ ⟨by simp [Heap.alloc], ?_⟩⟩
    intro j l' hj
    simp only [Heap.alloc] at hj
    rw [List.getElem?_append] at hj
    split at hj
    · exact absurd hj (hd j l')
    · next hlt =>
      cases e : j - h.length with
      | zero => omega
      | succ k => rw [e] at hj; simp at hj
  | block b l o =>
    have hb : b < h.length := (List.getElem?_eq_some_iff.1 o.1).1
    refine ⟨(h.alloc n).1.set b none, ?_, .block _ _ ⟨?_, ?_⟩⟩
    · simp only [Heap.free, if_true, Heap.alloc]
      rw [List.getElem?_append_left hb, o.1]
    · simp only [Heap.alloc]
      rw [List.getElem?_set_ne (by omega)]
      simp
    · intro j l' hj
      simp only [Heap.alloc] at hj
      by_cases e : b = j
      · subst e
        rw [List.getElem?_set_self (by simp; omega)] at hj
        simp at hj
      · rw [List.getElem?_set_ne e, List.getElem?_append] at hj
        split at hj
        · exact absurd (o.2 j l' hj).symm e
        · cases e2 : j - h.length with
          | zero => omega
          | succ k => rw [e2] at hj; simp at hj

theorem mapM_id_some {α : Type} (v : List α) : (v.map some).mapM id = some v := by
  induction v with
  | nil => rfl
  | cons a v ih => rw [List.map_cons, List.mapM_cons, ih]; rfl

theorem loadPix_ok {h : Heap} {p : UPtr} {l : List (Option Pixel)} {v : List Pixel} (hc : h.cells p = .ok l)
    (hv : l.take v.length = v.map some) : h.load p v.length = .ok v := by
  have hl : v.length ≤ l.length := by
    have := congrArg List.length hv
    simp only [List.length_take, List.length_map] at this
    omega
  rw [Heap.load, hc, Res.ok_bind, if_pos hl, hv, mapM_id_some]

/-- The state between calls: the current letter is `i`, the buffer has the cells `l`. -/
structure Ctx.Inv (h : Heap) (c : Ctx) (i : Image) (l : List (Option Pixel)) : Prop where
  mem : Mem h c.data l
  cap : c.cap = l.length
  img : c.img = ⟨i.bounds, c.data⟩
  wf : i.WF
  room : 2 * (i.bounds.w * i.bounds.h) ≤ l.length
  pixels : l.take i.data.length = i.data.map some

/-- The empty picture of a new context. -/
def noImage : Image := ⟨⟨0, 0⟩, []⟩

theorem inv_init : Ctx.Inv [] Ctx.init noImage [] :=
  ⟨.null (by intro j l; simp), rfl, rfl, ⟨rfl, by decide, by decide, by decide⟩, by decide, rfl⟩

theorem reserve_ok {h : Heap} {c : Ctx} {l : List (Option Pixel)} (m : Mem h c.data l) (hc : c.cap = l.length)
    (b : Bounds) (hb : 2 * (b.w * b.h) < W32) :
    ∃ h' l' d, c.reserve h b = .ok (h', ⟨d, l'.length, ⟨b, d⟩, c.img90⟩) ∧ Mem h' d l' ∧ 2 * (b.w * b.h) ≤ l'.length := by
  have ha : umul b.area 2 = 2 * (b.w * b.h) := by
    rw [Bounds.area, umul_eq (a := b.w) (b := b.h) (by omega), umul_eq (by omega)]; omega
  unfold Ctx.reserve
  simp only [ha, ImageRef.release, Ctx.grow]
  by_cases hg : 2 * (b.w * b.h) > c.cap
  · rw [if_pos hg]
    obtain ⟨h', hf, m'⟩ := m.realloc (2 * (b.w * b.h))
    rw [hf]
    simp only [Res.ok_bind, Res.pure_eq, ImageRef.assign, free_none]
    exact ⟨h', _, _, by rw [List.length_replicate], m', by simp⟩
  · rw [if_neg hg]
    simp only [Res.ok_bind, Res.pure_eq, ImageRef.assign, free_none]
    exact ⟨h, l, c.data, by rw [hc], m, by omega⟩

/-- The maker of a picture: it writes its pixels, in order, whenever there is room for them. -/
def Makes (maker : Out Pixel → Res (Out Pixel)) (i : Image) : Prop :=
  ∀ n, i.bounds.w * i.bounds.h ≤ n → maker ⟨n, []⟩ = .ok ⟨n, i.data⟩

theorem doImg_ok {h : Heap} {c : Ctx} {j : Image} {l : List (Option Pixel)} (inv : c.Inv h j l) {i : Image}
    {maker : Out Pixel → Res (Out Pixel)} (wf : i.WF) (hs : 2 * (i.bounds.w * i.bounds.h) < W32) (hm : Makes maker i) :
    ∃ h' c' l', c.doImg h i.bounds maker = .ok (h', c') ∧ c'.Inv h' i l' ∧ c'.img90 = c.img90 := by
  obtain ⟨h', l', d, e, m, hr⟩ := reserve_ok inv.mem inv.cap i.bounds hs
  have hlen := wf.len
  have mp := m.put (n := 0) (v := i.data) (by omega)
  rw [shift_zero] at mp
  refine ⟨h'.put d i.data, ⟨d, l'.length, ⟨i.bounds, d⟩, c.img90⟩,
    l'.take 0 ++ i.data.map some ++ l'.drop (0 + i.data.length), ?_, ?_, rfl⟩
  · unfold Ctx.doImg
    rw [e, Res.ok_bind]
    simp only [m.cells0, Res.ok_bind, hm l'.length (by omega), Res.pure_eq]
  · refine ⟨mp, by simp; omega, rfl, wf, by simp; omega, ?_⟩
    rw [List.take_zero, List.nil_append, List.take_left' (by simp)]

/-- The rotated picture. -/
def turned (i : Image) : Image :=
  ⟨⟨i.bounds.h, i.bounds.w⟩, grid i.bounds.w i.bounds.h (fun r c => pixD i (i.bounds.w - 1 - r) c)⟩

theorem doImg90_ok {h : Heap} {c : Ctx} {i : Image} {l : List (Option Pixel)} (inv : c.Inv h i l) :
    ∃ h' l', c.doImg90 h = .ok (h', { c with img90 := ⟨(turned i).bounds, shift c.data i.data.length⟩ }) ∧
      Ctx.Inv h' { c with img90 := ⟨(turned i).bounds, shift c.data i.data.length⟩ } i l' ∧
      (l'.drop i.data.length).take (turned i).data.length = (turned i).data.map some := by
  have ha := area_eq inv.wf
  have hlen := inv.wf.len
  have hroom := inv.room
  have hv : ImageRef.view h ⟨i.bounds, c.data⟩ = .ok i := by
    rw [ImageRef.view]
    simp only [ha, ← hlen]
    rw [loadPix_ok inv.mem.cells0 inv.pixels]; rfl
  have hdl : (l.drop i.data.length).length = l.length - i.data.length := List.length_drop
  have hrot := rotLoop_ok inv.wf i.bounds.w ⟨(l.drop i.data.length).length, []⟩ (Nat.le_refl _)
    (by rw [ha]; simp only [hdl]; omega) (by simp [grid_zero])
  have htl : (turned i).data.length = i.data.length := by
    simp only [turned, grid_length]; omega
  have mp := inv.mem.put (n := i.data.length) (v := (turned i).data) (by omega)
  refine ⟨h.put (shift c.data i.data.length) (turned i).data, _, ?_, ⟨mp, ?_, inv.img, inv.wf, ?_, ?_⟩, ?_⟩
  · unfold Ctx.doImg90
    simp only [ImageRef.release, inv.img, ha, ← hlen]
    rw [inv.mem.plus (by omega), Res.ok_bind]
    simp only [ImageRef.assign, free_none, Res.ok_bind, Res.pure_eq]
    rw [hv, Res.ok_bind, inv.mem.cells (by omega), Res.ok_bind, hrot, Res.ok_bind]
    rfl
  · simp only [List.length_append, List.length_take, List.length_map, List.length_drop]
    rw [inv.cap]; omega
  · simp only [List.length_append, List.length_take, List.length_map, List.length_drop]
    omega
  · rw [List.append_assoc, List.take_append_of_le_length (by rw [List.length_take]; omega), List.take_take,
      Nat.min_self]
    exact inv.pixels
  · rw [List.append_assoc, List.drop_left' (by rw [List.length_take]; omega), List.take_left' (by simp)]

end Ppocr

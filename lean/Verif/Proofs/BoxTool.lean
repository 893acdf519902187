import Verif.Model.BoxTool
import Verif.Spec.BoxTool
import Verif.Proofs.Command

/-! # Helper lemmas: the tool `box` -/

namespace Ppocr
open Spec Props

theorem listing_cons (p : Box × Image) (l : List (Box × Image)) :
    listing (p :: l) = boxLine p.1 ++ framed p.2 ++ listing l := by
  simp [listing, boxLine, boxShow]

/-- A number up to a byte that is no digit. -/
theorem showNat_inj {m n c d : Nat} {s t : List Nat} (hc : isDec c = false) (hd : isDec d = false)
    (h : showNat m ++ c :: s = showNat n ++ d :: t) : m = n ∧ c :: s = d :: t := by
  have h1 : (showNat m ++ c :: s).takeWhile isDec = showNat m := by
    rw [List.takeWhile_append_of_pos (showNat_dec m), List.takeWhile_cons, hc]
    simp
  have h2 : (showNat n ++ d :: t).takeWhile isDec = showNat n := by
    rw [List.takeWhile_append_of_pos (showNat_dec n), List.takeWhile_cons, hd]
    simp
  have e : showNat m = showNat n := by rw [← h1, ← h2, h]
  refine ⟨by rw [← showNat_val m, ← showNat_val n, e], ?_⟩
  rw [e] at h
  exact List.append_cancel_left h

theorem boxLine_inj {a b : Box} {s t : List Nat} (h : boxLine a ++ s = boxLine b ++ t) : a = b ∧ s = t := by
  unfold boxLine boxShow at h
  simp only [List.append_assoc, List.cons_append, List.nil_append, List.cons.injEq, true_and] at h
  obtain ⟨e1, h⟩ := showNat_inj (by decide) (by decide) h
  simp only [List.cons.injEq, true_and] at h
  obtain ⟨e2, h⟩ := showNat_inj (by decide) (by decide) h
  simp only [List.cons.injEq, true_and] at h
  obtain ⟨e3, h⟩ := showNat_inj (by decide) (by decide) h
  simp only [List.cons.injEq, true_and] at h
  obtain ⟨e4, h5⟩ := showNat_inj (by decide) (by decide) h
  simp only [List.cons.injEq, true_and] at h5
  refine ⟨?_, h5⟩
  cases a
  cases b
  simp only at e1 e2 e3 e4
  subst e1 e2 e3 e4
  rfl

theorem listing_inj : ∀ (l m : List (Box × Image)), (∀ p ∈ l, Cut p.2) → (∀ p ∈ m, Cut p.2) → listing l = listing m → l = m
  | [], [], _, _, _ => rfl
  | [], p :: m, _, _, h => by simp [listing] at h
  | p :: l, [], _, _, h => by simp [listing] at h
  | p :: l, q :: m, hl, hm, h => by
    rw [listing_cons, listing_cons, List.append_assoc, List.append_assoc] at h
    obtain ⟨e1, h⟩ := boxLine_inj h
    obtain ⟨e2, h⟩ := framed_inj (hl p (by simp)) (hm q (by simp)) h
    rw [listing_inj l m (fun r hr => hl r (by simp [hr])) (fun r hr => hm r (by simp [hr])) h]
    rw [show p = q from Prod.ext e1 e2]

theorem boxLoop_ok {i : Image} (fuel : Nat) : ∀ (x : Nat) (l : List (Box × Image)) (out : List Nat),
    segmentFrom i fuel x = .ok (l.map Prod.fst) → Pictures i (l.map Prod.fst) (l.map Prod.snd) →
    (∀ p ∈ l, imageShow p.2 = .ok (framed p.2)) → boxLoop i fuel x out = ⟨out ++ listing l, .ok ()⟩ := by
  induction fuel with
  | zero => intro x l out h; simp [segmentFrom] at h
  | succ fuel ih =>
    intro x l out h hp hf
    unfold segmentFrom at h
    obtain ⟨b, hb, h⟩ := Res.bind_eq_ok.1 h
    unfold boxLoop
    rw [hb]
    simp only
    by_cases ht : b.truthy = true
    · rw [if_pos ht] at h ⊢
      obtain ⟨bs', hbs, h⟩ := Res.bind_eq_ok.1 h
      simp only [Res.pure_eq, Res.ok.injEq] at h
      cases l with
      | nil => simp at h
      | cons p l =>
        simp only [List.map_cons, List.cons.injEq] at h
        obtain ⟨rfl, rfl⟩ := h
        obtain ⟨hp1, hp2⟩ := hp
        rw [hp1, Res.ok_bind, hf p (by simp)]
        simp only
        rw [ih _ l _ hbs hp2 (fun c hc => hf c (by simp [hc])), listing_cons]
        simp only [List.append_assoc]
    · rw [if_neg ht] at h ⊢
      simp only [Res.pure_eq, Res.ok.injEq] at h
      cases l with
      | cons p l => simp at h
      | nil => simp [listing]

theorem letters_cut {lum : Nat} {e : FileEnv} {i : Image} {l : List (Box × Image)} (hl : loadImage e lum = .ok i)
    (h : Letters i l) : ∀ p ∈ l, Cut p.2 ∧ imageShow p.2 = .ok (framed p.2) := by
  intro p hp
  obtain ⟨h1, h2, _⟩ := shown_cut hl h.size h.boxes h.pics p.2 (List.mem_map_of_mem hp)
  exact ⟨h1, imageShow_ok h2 h1.len h1.pixels⟩

/-- A picture laid at its place. -/
theorem pictures_mem {i : Image} : ∀ {l : List (Box × Image)} {p : Box × Image},
    Pictures i (l.map Prod.fst) (l.map Prod.snd) → p ∈ l → i.section p.1.x p.1.y p.1.bounds = .ok p.2
  | [], _, _, h => by cases h
  | q :: l, p, hp, h => by
    rcases List.mem_cons.1 h with rfl | h
    · exact hp.1
    · exact pictures_mem hp.2 h

end Ppocr

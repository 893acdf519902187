import Verif.Proofs.Line6
import Verif.Props.Learn

/-! # Helper lemmas: a line of letters that are read or not -/

namespace Ppocr
open Spec Props

/-- What `F` gives for a picture, something else if it does not give a result. -/
def reading6 (F : Image → Image → Res Letter6) (a : Image) : Letter6 :=
  match (do let r ← a.rotate90; F a r) with
  | .ok o => o
  | _ => ⟨[], [], [], []⟩

/-- The line when the letters are read or jam. -/
theorem line6_run {F : Image → Image → Res Letter6} {Rd : Image → Letter6 → Prop} {Jm : Image → Prop} {i : Image} (hi : LineImage i)
    (hh : ∀ a o, Rd a o → o.cached.head? = some o.r2) (ht : ∀ a r, Sized a → a.rotate90 = .ok r →
      (∃ o, F a r = .ok o ∧ Rd a o) ∨ (F a r = .ub ∧ Jm a)) :
    ∃ bs as, segment i = .ok bs ∧ Pictures i bs as ∧ as.length = bs.length ∧
      ((∃ (R : Image → Letter6) (l : Line6), (∀ a ∈ as, Rd a (R a)) ∧
        lineLoop6 F i (i.bounds.w + 1) 0 ⟨[], [], [], [], []⟩ = .ok l ∧ l.amb = withGaps 0 bs (letterWords R [] as) ∧
        l.res1 = eachSpaced (fun a => (R a).r1) as ∧ l.res2 = eachSpaced (fun a => (R a).r2) as) ∨
      ((∃ a ∈ as, Jm a) ∧ lineLoop6 F i (i.bounds.w + 1) 0 ⟨[], [], [], [], []⟩ = .ub)) := by
  have hsz := hi.size
  obtain ⟨bs, e, hlen, hbox, _⟩ := C13_segmentation_partial i hi.wf hi.w hi.h (by omega) hi.row
  have hin : ∀ b ∈ bs, 0 < b.w ∧ 0 < b.h ∧ b.x + b.w ≤ i.bounds.w ∧ b.y + b.h ≤ i.bounds.h := by
    intro b hb
    obtain ⟨⟨x0, c⟩, _⟩ := hbox b hb
    exact ⟨c.wpos, c.hpos, c.right, c.bottom⟩
  obtain ⟨as, hp, hal⟩ := pictures_exist hi.wf bs hin
  have hone : ∀ a ∈ as, (ReadAs F (reading6 F) a ∧ Rd a (reading6 F a)) ∨
      ((∃ r, a.rotate90 = .ok r ∧ F a r = .ub) ∧ Jm a) := by
    intro a ha
    have hsa := hi.pictures e hp a ha
    obtain ⟨r, hr, _⟩ := hsa.rotate
    rcases ht a r hsa hr with ⟨o, ho, h⟩ | ⟨ho, h⟩
    · have hR : reading6 F a = o := by
        unfold reading6
        rw [hr, Res.ok_bind, ho]
      left
      rw [hR]
      exact ⟨⟨r, hr, by rw [hR]; exact ho, by rw [hR]; exact hh a o h⟩, h⟩
    · exact .inr ⟨⟨r, hr, ho⟩, h⟩
  obtain ⟨k1, k2⟩ := lineLoop6_run (F := F) (R := reading6 F) hi.wf (by omega) (i.bounds.w + 1) 0 bs as
    ⟨[], [], [], [], []⟩ [] [] e hin hp
    (fun a ha => (hone a ha).elim (fun h => .inl h.1) fun h => .inr h.1) (inv6_init F _) (Nat.zero_le _)
  refine ⟨bs, as, e, hp, hal, ?_⟩
  by_cases hj : ∃ a ∈ as, ∃ r, a.rotate90 = .ok r ∧ F a r = .ub
  · right
    refine ⟨?_, k2 hj⟩
    obtain ⟨a, ha, r, hr, hu⟩ := hj
    refine ⟨a, ha, ?_⟩
    rcases hone a ha with ⟨⟨r', hr', ho, _⟩, _⟩ | ⟨_, h⟩
    · rw [hr] at hr'; cases hr'
      rw [hu] at ho; cases ho
    · exact h
  · left
    have hall : ∀ a ∈ as, ReadAs F (reading6 F) a ∧ Rd a (reading6 F a) := by
      intro a ha
      rcases hone a ha with h | ⟨h, _⟩
      · exact h
      · exact absurd ⟨a, ha, h⟩ hj
    obtain ⟨l, e1, f1, f2, f3⟩ := k1 fun a ha => (hall a ha).1
    exact ⟨reading6 F, l, fun a ha => (hall a ha).2, e1, f1, f2, f3⟩

end Ppocr

import Verif.Model.Tools
import Verif.Proofs.DictIO

/-! # Functions that always come to an end -/

namespace Ppocr
open Spec

/-- The result is not a loop that never ends. -/
class Ends {α : Type} (r : Res α) : Prop where
  out : r ≠ .diverge

namespace Ends
variable {α β : Type}

instance bind {r : Res α} {f : α → Res β} [h : Ends r] [hf : ∀ a, Ends (f a)] : Ends (r >>= f) := by
  constructor
  cases r with
  | ok a => exact (hf a).out
  | throw => exact fun h => nomatch h
  | abort => exact fun h => nomatch h
  | ub => exact fun h => nomatch h
  | diverge => exact absurd rfl h.out

theorem bind' {r : Res α} {f : α → Res β} (h : Ends r) (hf : ∀ a, Ends (f a)) : Ends (r >>= f) := bind

instance ok (a : α) : Ends (.ok a) := ⟨fun h => nomatch h⟩
instance pure (a : α) : Ends (Pure.pure a : Res α) := ok a
instance ub : Ends (.ub : Res α) := ⟨fun h => nomatch h⟩
instance abort : Ends (.abort : Res α) := ⟨fun h => nomatch h⟩
instance throw : Ends (.throw : Res α) := ⟨fun h => nomatch h⟩
instance ite {c : Prop} [Decidable c] {a b : Res α} [Ends a] [Ends b] : Ends (if c then a else b) := by
  split <;> assumption

theorem bind_ok {r : Res α} {f : α → Res β} (h : Ends r) (hf : ∀ a, r = .ok a → Ends (f a)) : Ends (r >>= f) := by
  cases r with
  | ok a => exact hf a rfl
  | throw => exact inferInstanceAs (Ends .throw)
  | abort => exact inferInstanceAs (Ends .abort)
  | ub => exact inferInstanceAs (Ends .ub)
  | diverge => exact absurd rfl h.out

end Ends

/-- Follow the structure of a function. -/
macro "finishes" : tactic => `(tactic| repeat' first
  | assumption
  | infer_instance
  | intro _
  | apply Ends.bind'
  | split
  | (dsimp only))

instance (b : Bool) : Ends (assert b) := by
  unfold assert
  finishes

instance (a : Nat) (b : Nat) : Ends (udiv a b) := by
  unfold udiv
  finishes

instance Ends.mapM {α β : Type} (f : α → Res β) [∀ a, Ends (f a)] : ∀ l : List α, Ends (l.mapM f)
  | [] => by
    rw [List.mapM_nil]
    finishes
  | _ :: l => by
    rw [List.mapM_cons]
    have := Ends.mapM f l
    finishes

instance (v : Int) : Ends (si v) := by
  unfold si
  finishes

instance (α : Type) (l : List α) (i : Nat) : Ends (@rd α l i) := by
  unfold rd
  finishes

instance (α : Type) (o : Out α) (v : α) : Ends (@Out.push α o v) := by
  unfold Out.push
  finishes

instance (α : Type) (src : List α) (i : Nat) (x0 : Nat) (x1 : Out α) : Ends (@copyTo α src i x0 x1) := by
  fun_induction copyTo <;> finishes

/-! ### Images -/

instance (i : Image) (x : Nat) (y : Nat) : Ends (Image.dataAt i x y) := by
  unfold Image.dataAt
  finishes

instance (src : List Pixel) (stride : Nat) (w : Nat) (x0 : Nat) (x1 : Nat) (x2 : Out Pixel) : Ends (sectionRows src stride w x0 x1 x2) := by
  fun_induction sectionRows <;> finishes

instance (src : Image) (o : Out Pixel) (x : Nat) (y : Nat) (b : Bounds) : Ends (sectionInto src o x y b) := by
  unfold sectionInto
  finishes

instance (o : Out Pixel) (b : Bounds) : Ends (Out.toImage o b) := by
  unfold Out.toImage
  finishes

instance (i : Image) (x : Nat) (y : Nat) (b : Bounds) : Ends (Image.section i x y b) := by
  unfold Image.section
  finishes

instance (i : Image) : Ends (Image.clone i) := by
  unfold Image.clone
  finishes

instance (a : List Pixel) (b : List Pixel) (x0 : Nat) (x1 : Nat) : Ends (equalN a b x0 x1) := by
  fun_induction equalN <;> finishes

instance (a : Image) (b : Image) : Ends (Image.eq a b) := by
  unfold Image.eq
  finishes

/-! ### The standard library -/

instance (α : Type) (p : α → Res Bool) (x0 : List α) [∀ y0, Ends (p y0)] : Ends (@removeIf α p x0) := by
  fun_induction removeIf <;> finishes

instance (α : Type) (eq : α → α → Res Bool) (last : α) (x0 : List α) [∀ y0 y1, Ends (eq y0 y1)] : Ends (@uniqueFrom α eq last x0) := by
  fun_induction uniqueFrom <;> finishes

instance (α : Type) (eq : α → α → Res Bool) (x0 : List α) [∀ y0 y1, Ends (eq y0 y1)] : Ends (@uniqueBy α eq x0) := by
  unfold uniqueBy
  finishes

end Ppocr

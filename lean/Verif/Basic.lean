/-!
# Outcomes, 32-bit arithmetic and buffers

Shared vocabulary of the model.  Nothing in this file models one particular
function of the code; the C++ notion each definition stands for is stated.
-/

namespace Ppocr

/-- Outcome of running a piece of C++.
* `ok a`    : normal return;
* `throw`   : an exception leaves the function;
* `abort`   : a failing `assert` (present only in builds without `NDEBUG`);
* `ub`      : undefined behaviour (out-of-bounds access, use of uninitialised memory,
              division by zero, violated precondition of a library function);
* `diverge` : the function never returns. -/
inductive Res (α : Type) where
  | ok (a : α)
  | throw
  | abort
  | ub
  | diverge
  deriving Repr, DecidableEq

namespace Res
variable {α β : Type}

/-- Sequencing: anything but a normal return stops the execution. -/
def bind (r : Res α) (f : α → Res β) : Res β :=
  match r with
  | ok a => f a
  | throw => throw
  | abort => abort
  | ub => ub
  | diverge => diverge

instance : Monad Res where
  pure := ok
  bind := bind

@[simp] theorem pure_eq (a : α) : (pure a : Res α) = ok a := (rfl)
@[simp] theorem ok_bind (a : α) (f : α → Res β) : (ok a >>= f) = f a := (rfl)
@[simp] theorem throw_bind (f : α → Res β) : ((throw : Res α) >>= f) = throw := (rfl)
@[simp] theorem abort_bind (f : α → Res β) : ((abort : Res α) >>= f) = abort := (rfl)
@[simp] theorem ub_bind (f : α → Res β) : ((ub : Res α) >>= f) = ub := (rfl)
@[simp] theorem diverge_bind (f : α → Res β) : ((diverge : Res α) >>= f) = diverge := (rfl)

theorem bind_eq_ok {r : Res α} {f : α → Res β} {b : β} :
    (r >>= f) = ok b ↔ ∃ a, r = ok a ∧ f a = ok b := by
  cases r <;> simp

theorem bind_assoc {γ : Type} (r : Res α) (f : α → Res β) (g : β → Res γ) :
    ((r >>= f) >>= g) = (r >>= fun a => f a >>= g) := by
  cases r <;> rfl

instance : LawfulMonad Res := LawfulMonad.mk' Res
  (id_map := by intro α x; cases x <;> rfl)
  (pure_bind := by intros; rfl)
  (bind_assoc := by intro α β γ x f g; cases x <;> rfl)

end Res

/-- `assert(b)` in a build without `NDEBUG`. -/
def assert (b : Bool) : Res Unit := if b then .ok () else .abort

@[simp] theorem assert_true : assert true = .ok () := rfl
@[simp] theorem assert_false : assert false = .abort := rfl

/-- 2^32: `unsigned` is 32 bits wide on the supported platforms. -/
def W32 : Nat := 4294967296

/-- `a + b` on `unsigned`. -/
def uadd (a b : Nat) : Nat := (a + b) % W32
/-- `a - b` on `unsigned`. -/
def usub (a b : Nat) : Nat := (a + (W32 - b % W32)) % W32
/-- `a * b` on `unsigned`. -/
def umul (a b : Nat) : Nat := (a * b) % W32
/-- `a / b` on integers: division by zero is undefined behaviour. -/
def udiv (a b : Nat) : Res Nat := if b = 0 then .ub else .ok (a / b)

/-- The result of an arithmetic operation on `int`: signed overflow is undefined behaviour. -/
def si (v : Int) : Res Int := if -2147483648 ≤ v ∧ v < 2147483648 then .ok v else .ub
/-- Conversion `int(n)` of an `unsigned`: two's complement. -/
def toI32 (n : Nat) : Int := if n % W32 < 2147483648 then (n % W32 : Nat) else (n % W32 : Nat) - (W32 : Nat)

/-- `*p` for a pointer at offset `i` of a buffer. -/
def rd {α : Type} (l : List α) (i : Nat) : Res α :=
  match l[i]? with
  | some a => .ok a
  | none => .ub

/-- A freshly allocated buffer of `cap` cells that is filled from the left by `*out++ = v`:
`done` are the cells written so far, the remaining ones are uninitialised. -/
structure Out (α : Type) where
  cap : Nat
  done : List α
  deriving Repr, DecidableEq

/-- `*out++ = v`. -/
def Out.push {α : Type} (o : Out α) (v : α) : Res (Out α) :=
  if o.done.length < o.cap then .ok { o with done := o.done ++ [v] } else .ub

/-- Cells of the buffer; `none` is an uninitialised cell. -/
def Out.cells {α : Type} (o : Out α) : List (Option α) :=
  o.done.map some ++ List.replicate (o.cap - o.done.length) none

/-- `std::copy(src + i, src + i + n, out)`. -/
def copyTo {α : Type} (src : List α) (i : Nat) : Nat → Out α → Res (Out α)
  | 0, o => .ok o
  | n + 1, o => do
    let v ← rd src i
    let o ← o.push v
    copyTo src (i + 1) n o

/-! ### Elementary facts -/

theorem rd_eq_ok {α : Type} {l : List α} {i : Nat} {a : α} :
    rd l i = .ok a ↔ l[i]? = some a := by
  unfold rd; split <;> simp_all

theorem rd_of_getElem? {α : Type} {l : List α} {i : Nat} {a : α} (h : l[i]? = some a) :
    rd l i = .ok a := rd_eq_ok.2 h

theorem rd_of_lt {α : Type} {l : List α} {i : Nat} (h : i < l.length) :
    rd l i = .ok l[i] := rd_eq_ok.2 (by simp [h])

theorem rd_of_ge {α : Type} {l : List α} {i : Nat} (h : l.length ≤ i) :
    rd l i = .ub := by
  unfold rd; rw [List.getElem?_eq_none h]

theorem Out.push_ok {α : Type} {o : Out α} {v : α} (h : o.done.length < o.cap) :
    o.push v = .ok { cap := o.cap, done := o.done ++ [v] } := by
  unfold Out.push; simp [h]

theorem copyTo_ok {α : Type} (src : List α) (n : Nat) : ∀ (i : Nat) (o : Out α),
    i + n ≤ src.length → o.done.length + n ≤ o.cap →
    copyTo src i n o = .ok { cap := o.cap, done := o.done ++ (src.drop i).take n } := by
  induction n with
  | zero => intro i o _ _; simp [copyTo]
  | succ n ih =>
    intro i o hi ho
    have hlt : i < src.length := by omega
    unfold copyTo
    rw [rd_of_lt hlt]
    simp only [Res.ok_bind]
    rw [Out.push_ok (by omega)]
    simp only [Res.ok_bind]
    rw [ih (i + 1) _ (by omega) (by simp; omega)]
    congr 2
    rw [List.append_assoc]
    congr 1
    rw [List.drop_eq_getElem_cons hlt, List.take_succ_cons]
    rfl

theorem W32_pos : 0 < W32 := by decide

theorem uadd_lt (a b : Nat) : uadd a b < W32 := Nat.mod_lt _ W32_pos
theorem uadd_eq {a b : Nat} (h : a + b < W32) : uadd a b = a + b := Nat.mod_eq_of_lt h
theorem umul_eq {a b : Nat} (h : a * b < W32) : umul a b = a * b := Nat.mod_eq_of_lt h
theorem si_eq {v : Int} (h1 : -2147483648 ≤ v) (h2 : v < 2147483648) : si v = .ok v := by
  unfold si; rw [if_pos ⟨h1, h2⟩]
theorem toI32_eq {n : Nat} (h : n < 2147483648) : toI32 n = (n : Int) := by
  unfold toI32
  have : n % W32 = n := Nat.mod_eq_of_lt (by simp only [W32]; omega)
  rw [this, if_pos h]
theorem usub_eq {a b : Nat} (ha : a < W32) (h : b ≤ a) : usub a b = a - b := by
  unfold usub; simp only [W32] at *; omega

end Ppocr

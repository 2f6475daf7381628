/-!
# Shared vocabulary of the models

`Res` separates the three things a call into CGMF can do: return, stop the
process through one of the code's own `exit`/`cgmTerminateCode` calls
(libcgmf/src/terminate.cpp), or run into undefined behaviour of C++ (out of
bounds access, null dereference, double free).  Nothing in the models is totalised with
a default value: an access that would be undefined in the code is `ub` here.
-/

namespace CGMF

/-- Result of a modelled call: value, controlled process exit, or undefined behaviour. -/
inductive Res (α : Type _) where
  | ok (a : α)
  | exit
  | ub
  deriving Repr, DecidableEq

namespace Res

/-- Sequencing: `exit` and `ub` end the computation. -/
def bind {α β : Type _} (x : Res α) (f : α → Res β) : Res β :=
  match x with
  | ok a => f a
  | exit => exit
  | ub => ub

instance : Monad Res where
  pure := ok
  bind := bind

@[simp] theorem pure_eq {α} (a : α) : (pure a : Res α) = ok a := rfl
@[simp] theorem bind_ok {α β} (a : α) (f : α → Res β) : ((ok a : Res α) >>= f) = f a := rfl
@[simp] theorem bind_exit {α β} (f : α → Res β) : ((exit : Res α) >>= f) = exit := rfl
@[simp] theorem bind_ub {α β} (f : α → Res β) : ((ub : Res α) >>= f) = ub := rfl

theorem bind_eq_ok {α β} {x : Res α} {f : α → Res β} {b : β} :
    (x >>= f) = ok b ↔ ∃ a, x = ok a ∧ f a = ok b := by
  cases x <;> simp

end Res

/-- Read of a C array through an `int` index: undefined outside `[0, length)`. -/
def readAt {α : Type _} (xs : List α) (i : Int) : Res α :=
  if h : 0 ≤ i ∧ i.toNat < xs.length then .ok (xs[i.toNat]'h.2) else .ub

/-- Write to a C array through an `int` index: undefined outside `[0, length)`. -/
def writeAt {α : Type _} (xs : List α) (i : Int) (v : α) : Res (List α) :=
  if 0 ≤ i ∧ i.toNat < xs.length then .ok (xs.set i.toNat v) else .ub

end CGMF

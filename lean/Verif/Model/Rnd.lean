import Verif.Model.Basics

/-!
# Computations that consume random numbers

`rng_cgm()` (libcgmf/include/rngcgm.h) is modelled by the list of the values it will return.  A
computation may end with a value, stop the process, run into undefined behaviour, or need more random
numbers than the list holds (`more`).  A loop that never ends is `more` for every list.
-/

namespace CGMF

/-- Outcome of a computation with random numbers. -/
inductive Out (α : Type) where
  | ok (a : α)
  | exit
  | ub
  | more
  deriving DecidableEq, Repr

/-- Computations reading random numbers of type `K`. -/
def Rnd (K α : Type) : Type := List K → Out (α × List K)

namespace Rnd

variable {K α β : Type}

/-- Return a value. -/
def ret (a : α) : Rnd K α := fun s => .ok (a, s)

/-- Sequencing. -/
def seq (x : Rnd K α) (f : α → Rnd K β) : Rnd K β := fun s =>
  match x s with
  | .ok (a, s') => f a s'
  | .exit => .exit
  | .ub => .ub
  | .more => .more

instance : Monad (Rnd K) where
  pure := ret
  bind := seq

/-- `rng_cgm()` -/
def draw : Rnd K K := fun s =>
  match s with
  | [] => .more
  | r :: s => .ok (r, s)

/-- `cgmTerminateCode` -/
def stop : Rnd K α := fun _ => .exit

/-- Undefined behaviour. -/
def undef : Rnd K α := fun _ => .ub

/-- A computation without random numbers. -/
def lift (x : Res α) : Rnd K α := fun s =>
  match x with
  | .ok a => .ok (a, s)
  | .exit => .exit
  | .ub => .ub

/-- Value of an optional read that is undefined when absent. -/
def get (x : Option α) : Rnd K α := fun s =>
  match x with
  | some a => .ok (a, s)
  | none => .ub

@[simp] theorem pure_run (a : α) (s : List K) : (pure a : Rnd K α) s = .ok (a, s) := rfl

theorem bind_run (x : Rnd K α) (f : α → Rnd K β) (s : List K) : (x >>= f) s = match x s with
  | .ok (a, s') => f a s'
  | .exit => .exit
  | .ub => .ub
  | .more => .more := rfl

theorem bind_ok {x : Rnd K α} {f : α → Rnd K β} {s s' : List K} {b : β} :
    (x >>= f) s = .ok (b, s') ↔ ∃ a s1, x s = .ok (a, s1) ∧ f a s1 = .ok (b, s') := by
  rw [bind_run]
  cases h : x s with
  | ok p =>
    obtain ⟨a, s1⟩ := p
    constructor
    · intro h1; exact ⟨a, s1, rfl, h1⟩
    · rintro ⟨a', s', h1, h2⟩; cases h1; exact h2
  | _ => simp

theorem bind_of_ok {x : Rnd K α} {f : α → Rnd K β} {s s1 : List K} {a : α} (h : x s = .ok (a, s1)) :
    (x >>= f) s = f a s1 := by rw [bind_run, h]

theorem draw_ok {s s' : List K} {r : K} : (draw : Rnd K K) s = .ok (r, s') ↔ s = r :: s' := by
  cases s with
  | nil => simp [draw]
  | cons a s => simp [draw]

@[simp] theorem draw_cons (r : K) (s : List K) : (draw : Rnd K K) (r :: s) = .ok (r, s) := rfl

theorem lift_ok {x : Res α} {s s' : List K} {a : α} :
    (lift x : Rnd K α) s = .ok (a, s') ↔ x = .ok a ∧ s' = s := by
  cases x <;> simp [lift, eq_comm]

theorem get_ok {x : Option α} {s s' : List K} {a : α} :
    (get x : Rnd K α) s = .ok (a, s') ↔ x = some a ∧ s' = s := by
  cases x <;> simp [get, eq_comm]

@[simp] theorem stop_run (s : List K) : (stop : Rnd K α) s = .exit := rfl
@[simp] theorem undef_run (s : List K) : (undef : Rnd K α) s = .ub := rfl

theorem pure_ok {a b : α} {s s' : List K} : (pure a : Rnd K α) s = .ok (b, s') ↔ a = b ∧ s = s' := by
  simp

end Rnd

end CGMF

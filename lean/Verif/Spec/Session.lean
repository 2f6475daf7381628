import Verif.Model.Session
import Verif.Proofs.Law
import Verif.Spec.LawIn

/-! # Properties of fissions that have a probability -/

namespace CGMF.Law

open MeasureTheory

/-- A routine whose result depends on the numbers it uses only, and a set of results: it can be told from the first `n` random numbers
whether the routine ends there with a result in the set. -/
structure Observable {α : Type} (f : Rnd ℝ α) (A : Set α) : Prop where
  loc : Local f
  meas : ∀ n, MeasurableSet {ω : ℕ → ℝ | ∃ a ∈ A, f (pre ω n) = .ok (a, [])}

/-- The fissions of the list lie in the sets of the list, one by one. -/
def AllIn {α : Type} (As : List (Set α)) : Set (List α) := {es | List.Forall₂ (fun e A => e ∈ A) es As}

/-- The fissions whose fragments have `A` nucleons together. -/
def OfMass {M : Type} (A : Int) : Set (Pre.Comp ℝ × Frag.Frags ℝ M) := {e | e.2.p.al + e.2.p.ah = A}

/-- Multi-chance probabilities `P 0`, ..., `P (N - 1)`, not all zero, below the maximum stored with them. -/
structure Chances (m : Pre.Multi ℝ) (N : Nat) (P : Nat → ℝ) : Prop where
  size : (N : Int) = m.nemit + 1
  read : ∀ i < N, m.prob[i]? = some (P i)
  nonneg : ∀ i < N, 0 ≤ P i
  below : ∀ i < N, P i ≤ m.pmax
  some : 0 < ∑ i ∈ Finset.range N, P i

/-- Probability of `n` pre-fission neutrons. -/
noncomputable def chance (N : Nat) (P : Nat → ℝ) (n : Nat) : ENNReal := ENNReal.ofReal (P n / ∑ i ∈ Finset.range N, P i)

end CGMF.Law

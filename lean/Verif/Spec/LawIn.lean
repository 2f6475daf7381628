import Verif.Spec.Law

/-!
# Probability that a result lies in a set

For results with a continuous distribution; see `Spec/Law.lean`.
-/

namespace CGMF.Law

/-- Probability that `f` ends normally with a value in `S`. -/
noncomputable def probIn {α : Type} (f : Rnd ℝ α) (S : Set α) : ENNReal :=
  stream {ω | ∃ n a, f (pre ω n) = .ok (a, []) ∧ a ∈ S}

end CGMF.Law

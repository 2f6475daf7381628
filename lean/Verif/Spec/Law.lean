import Verif.Model.Rnd
import Verif.Tactics
import Mathlib.Probability.ProductMeasure
import Mathlib.MeasureTheory.Measure.Lebesgue.Basic

/-!
# Probability of a result when the random numbers are independent and uniform

The random-number generator is idealised as an infinite sequence of independent numbers, each uniform on
`[0,1)`.  `prob f a` is the probability that the computation `f`, reading that sequence from its start, ends
with the value `a`.  A computation that runs forever, stops the process or is undefined contributes to no
value, so `∑ a, prob f a = 1` says that `f` ends normally with probability one.
-/

namespace CGMF.Law

open MeasureTheory

/-- The uniform distribution on `[0,1)`. -/
noncomputable def unif : Measure ℝ := volume.restrict (Set.Ico 0 1)

/-- Independent uniform numbers. -/
noncomputable def stream : Measure (ℕ → ℝ) := Measure.infinitePi (fun _ => unif)

/-- The first `n` numbers of a sequence. -/
def pre (ω : ℕ → ℝ) (n : Nat) : List ℝ := (List.range n).map ω

/-- Sequences for which `f` returns `a` after exactly `n` numbers. -/
def At {α : Type} (f : Rnd ℝ α) (a : α) (n : Nat) : Set (ℕ → ℝ) := {ω | f (pre ω n) = .ok (a, [])}

/-- Probability that `f` returns `a`. -/
noncomputable def prob {α : Type} (f : Rnd ℝ α) (a : α) : ENNReal := stream {ω | ∃ n, f (pre ω n) = .ok (a, [])}

end CGMF.Law

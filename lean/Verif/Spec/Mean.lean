import Verif.Spec.Law
import Mathlib.MeasureTheory.Integral.Bochner.Basic

/-!
# Averages over the random numbers, and what recoil leaves on average

The random numbers are those of `Spec/Law.lean`.
-/

namespace CGMF.Law

open Classical in
/-- The number `φ` of the result of `f` on a sequence of random numbers; zero where `f` does not end normally. -/
noncomputable def valueAt {α : Type} (f : Rnd ℝ α) (φ : α → ℝ) (ω : ℕ → ℝ) : ℝ :=
  if h : ∃ a n, f (pre ω n) = .ok (a, []) then φ h.choose else 0

/-- Average of `φ` over the results of `f`. -/
noncomputable def mean {α : Type} (f : Rnd ℝ α) (φ : α → ℝ) : ℝ := ∫ ω, valueAt f φ ω ∂stream

end CGMF.Law

namespace CGMF.Spec

/-- Share of the momentum left after the emissions of a list of (mass of the emitter, energy): each takes the part `mn/m` with it. -/
noncomputable def shareLeft (mn : ℝ) : List (ℝ × ℝ) → ℝ
  | [] => 1
  | x :: l => (1 - mn / x.1) * shareLeft mn l

/-- Mean square of the momentum after the emissions, from the mean square `q` before: each shrinks what is there and adds the square
`2 mn e` of the momentum of the neutron. -/
noncomputable def squareLeft (mn : ℝ) : List (ℝ × ℝ) → ℝ → ℝ
  | [], q => q
  | x :: l, q => squareLeft mn l ((1 - mn / x.1) ^ 2 * q + 2 * mn * x.2)

end CGMF.Spec

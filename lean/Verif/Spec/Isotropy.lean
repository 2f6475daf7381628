import Mathlib.MeasureTheory.Measure.Lebesgue.Basic
import Mathlib.Analysis.SpecialFunctions.Sqrt

/-!
# Solid angle

The share of all directions that lie in a set, as the share of the unit ball filled by the cone over the set.
-/

namespace CGMF.Isotropy

open MeasureTheory

/-- Square of the length. -/
def lenSq (v : Fin 3 → ℝ) : ℝ := v 0 ^ 2 + v 1 ^ 2 + v 2 ^ 2

/-- Direction of a vector. -/
noncomputable def unitDir (v : Fin 3 → ℝ) : Fin 3 → ℝ := fun i => v i / √(lenSq v)

/-- Share of the unit ball whose points have their direction in `S`. -/
noncomputable def solid (S : Set (Fin 3 → ℝ)) : ENNReal :=
  volume {x : Fin 3 → ℝ | x ≠ 0 ∧ lenSq x < 1 ∧ unitDir x ∈ S} / volume {x : Fin 3 → ℝ | lenSq x < 1}

end CGMF.Isotropy

import Mathlib.Analysis.SpecialFunctions.Log.Basic
import Verif.Spec.Float

/-!
# Random numbers and the logarithm of the library
-/

namespace CGMF.Fp

/-- A number that the random engine can return: of type `double`, from 0 up to and without 1. -/
def IsDraw (r : ℝ) : Prop := IsDouble r ∧ 0 ≤ r ∧ r < 1

/-- The library's logarithm has six correct digits below 1.  (Those in use have fifteen.) -/
def IsLog (ln : ℝ → ℝ) : Prop := ∀ q, 0 < q → q < 1 → |ln q - Real.log q| ≤ |Real.log q| / 2 ^ 20

end CGMF.Fp

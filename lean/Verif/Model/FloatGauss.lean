import Mathlib.Analysis.SpecialFunctions.Log.Basic
import Verif.Model.Float
import Verif.Model.Rnd

/-!
# Normally distributed numbers in floating-point arithmetic

`Yields::sampleGaussian` (libcgmf/src/Yields.cpp:687-703) and `Yields::sampleTKE` (655-664) with every operation rounded
(Model/Float).  Over exact numbers they are in Model/Gauss.  `log` of the library is a parameter.
-/

namespace CGMF.Fp

variable (fl : ℝ → ℝ)

/-- `rsq = rand1*rand1 + rand2*rand2` (Yields.cpp:697). -/
def disc (a b : ℝ) : ℝ := fl (fl (a * a) + fl (b * b))

/-- `rand1*sqrt(-(double)2.*log(rsq)/rsq)` (Yields.cpp:700, 702). -/
noncomputable def deviate (ln : ℝ → ℝ) (a q : ℝ) : Option ℝ := do
  let d ← fdiv fl (fl (-2 * ln q)) q
  let f ← fsqrt fl d
  pure (fl (a * f))

/-- The loop of `sampleGaussian` (Yields.cpp:694-698) and the value returned (700-702), from a list of random numbers. -/
noncomputable def polar (ln : ℝ → ℝ) : Rnd ℝ (Option ℝ)
  | r1 :: r2 :: s =>
    let a := isoCos fl r1
    let b := isoCos fl r2
    if disc fl a b = 0 ∨ 1 ≤ disc fl a b then polar ln s else .ok (deviate fl ln a (disc fl a b), s)
  | _ => .more

/-- `rescaleAverageTKE*avTKE[a]+sTKE[a]*sampleGaussian()` (Yields.cpp:663) for the entries `t` of `avTKE` and `w` of `sTKE`. -/
noncomputable def polarTKE (ln : ℝ → ℝ) (resc t w : ℝ) (s : List ℝ) : Out (Option ℝ × List ℝ) :=
  match polar fl ln s with
  | .ok (g, rest) => .ok (g.map fun x => fl (fl (resc * t) + fl (w * x)), rest)
  | .exit => .exit
  | .ub => .ub
  | .more => .more

end CGMF.Fp

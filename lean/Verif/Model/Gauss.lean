import Mathlib.Algebra.Order.Field.Basic
import Verif.Model.Rnd
import Verif.Model.Yields

/-!
# Normally distributed numbers

Model of `Yields::sampleGaussian` (libcgmf/src/Yields.cpp:687-703), `Yields::sampleTKE` (655-664) and `normaldist`
(libcgmf/src/setup.cpp:438-450).  `log` and `sqrt` are parameters.
-/

namespace CGMF.Gauss

variable {K : Type} [Field K] [LinearOrder K]

/-- The loop of `sampleGaussian` (Yields.cpp:694-698) and the value returned (700-702): pairs of numbers are thrown away until the
point lies in the open unit disc without its centre. -/
def sampleGaussian (ln sq : K → K) : Rnd K K
  | r1 :: r2 :: s =>
    let a := 2 * r1 - 1
    let b := 2 * r2 - 1
    let q := a * a + b * b
    if q = 0 ∨ 1 ≤ q then sampleGaussian ln sq s else .ok (a * sq (-2 * ln q / q), s)
  | _ => .more

/-- `sampleTKE` (Yields.cpp:655-664). -/
def drawTKE (ln sq : K → K) (av sd : List K) (acn : Int) (resc : K) (A : Int) : Rnd K K := do
  let g ← sampleGaussian ln sq
  Rnd.lift (CGMF.Yld.sampleTKE av sd acn resc A g)

/-- `normaldist` (setup.cpp:438-450). -/
def normaldist (ln sq : K → K) (m s : K) : Rnd K K
  | r1 :: r2 :: rs =>
    let a := 2 * r1 - 1
    let b := 2 * r2 - 1
    let r := a * a + b * b
    if 1 ≤ r ∨ r = 0 then normaldist ln sq m s rs else .ok (s * (a * sq (-2 * ln r / r)) + m, rs)
  | _ => .more

end CGMF.Gauss

import Verif.Model.Fragments
import Mathlib.Analysis.SpecialFunctions.Trigonometric.Basic

/-!
# Angular table of a pre-equilibrium neutron

libcgmf/src/FissionFragments.cpp 5385-5433 (end of the first neutron of `getPrefissionNeutronEnergy`).  Real numbers in
place of doubles; the C arrays `preeqScatteringParams[2][4][6]` and `Ppreeq[THETA_STEPS][2]` are indexed inside their
bounds by constants, so they are functions on finite types and a list of `n` rows (`n` is `THETA_STEPS`, 50).  The table
is sampled by `Kin.cdfCos` (kinematics.cpp 264-279).
-/

namespace CGMF.Kin

open CGMF.Frag

/-- One of `aparm` ... `dparm` (5391-5398, 5400-5410): the sum of six powers of the excitation energy, accumulated. -/
def powers (u : Fin 6 → ℝ) (eexc : ℝ) : ℝ := (List.finRange 6).foldl (fun acc i => acc + u i * eexc ^ (i : Nat)) 0

/-- `p0` (5399) and `p1` (5411) from the four rows of coefficients. -/
def fitParam (u : Fin 4 → Fin 6 → ℝ) (eexc einc : ℝ) : ℝ :=
  powers (u 0) eexc + powers (u 1) eexc * einc + powers (u 2) eexc * einc * einc
    + powers (u 3) eexc * einc * einc * einc

/-- `Ppreeq[i][1]` before the division (5415-5427). -/
noncomputable def preeqSum (p0 p1 : ℝ) (n : Nat) : Nat → ℝ
  | 0 => 0
  | i + 1 => if p0 = 0 ∧ p1 = 0 then 1 else preeqSum p0 p1 n i + p0 * Real.sinh (cosAt n (i + 1)) + p1

/-- `Ppreeq` (5415-5431). The division by the last row is in place, last row last, so every row is divided by the same
number; when that is zero the rows are not numbers. -/
noncomputable def preeqRows (p0 p1 : ℝ) (n : Nat) : Res (List (ℝ × ℝ)) :=
  if preeqSum p0 p1 n (n - 1) = 0 then .ub
  else .ok ((List.range n).map fun i : Nat =>
    (if i = 0 then -1 else cosAt n i, preeqSum p0 p1 n i / preeqSum p0 p1 n (n - 1)))

/-- The table for the coefficients `par`, the excitation energy of the residual and the incident energy. -/
noncomputable def preeqTable (par : Fin 2 → Fin 4 → Fin 6 → ℝ) (eexc einc : ℝ) (n : Nat) : Res (List (ℝ × ℝ)) :=
  preeqRows (fitParam (par 0) eexc einc) (fitParam (par 1) eexc einc) n

end CGMF.Kin

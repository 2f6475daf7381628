import Verif.Tactics

/-!
# Energy bins of the lines returned by `cgm`
-/

namespace CGMF.CgmApi

variable {K : Type} [Field K] [LinearOrder K]

/-- The energy `e` lies in the bin of width `de` around `k * de` (the edges are shifted down by the rounding
constant), and not below half a bin. -/
def InBin (eps de : K) (k : Nat) (e : K) : Prop :=
  1 ≤ k ∧ ((k : K) - 1 / 2 - eps) * de ≤ e ∧ e < ((k : K) + 1 / 2 - eps) * de ∧ de / 2 ≤ e

instance (eps de : K) (k : Nat) (e : K) : Decidable (InBin eps de k e) := by unfold InBin; infer_instance

end CGMF.CgmApi

import Mathlib.Algebra.Order.Field.Basic

/-!
# Specification: the documented reactions

Written from the user guide's list, independent of the model of the code.
-/

namespace CGMF.Spec

/-- Spontaneous-fission isotopes (positive ZAID = 1000 Z + A). -/
def spontaneousIsotopes : List Int := [94238, 94240, 94242, 94244, 98252, 98254]

/-- Neutron-induced targets (positive ZAID). -/
def inducedIsotopes : List Int := [92233, 92234, 92235, 92238, 93237, 94239, 94241]

/-- Reactions offered to the user.  For spontaneous fission the id may carry either sign. -/
def Supported {K : Type _} [Field K] [LinearOrder K] (zaid : Int) (e : K) : Prop :=
  (e = 0 ∧ (zaid ∈ spontaneousIsotopes ∨ -zaid ∈ spontaneousIsotopes)) ∨
  (0 < e ∧ e ≤ 20 ∧ zaid ∈ inducedIsotopes)

end CGMF.Spec

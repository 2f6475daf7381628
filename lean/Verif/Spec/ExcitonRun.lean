import Verif.Model.ExcitonRun
import Mathlib.Data.Real.Basic

/-! Vocabulary of the statements on the composed exciton calculation. -/

namespace CGMF.ExcSpec

open CGMF.Exc

/-- A neutron of laboratory energy `einc` on the target `(z,a)`: `sn` is the separation energy of the neutron in the composite
nucleus, not negative, and `cms` the energy in the centre of mass.  The masses are in the table, the total excitation energy `sn + cms` is at
least half a bin, at most 38 MeV, and the grid of `N` bins of width `w` holds both nuclei. -/
structure Reaction (C : Consts ℝ) (me : Int → Int → Res ℝ) (w : ℝ) (N : Nat) (z a : Int) (einc sn cms : ℝ) : Prop where
  protons : 1 ≤ z
  neutrons : z < a
  masses : ∃ m0 m1, me z (a + 1) = .ok m0 ∧ me z a = .ok m1 ∧ sn = m1 + C.en - m0 ∧ 0 < (a : ℝ) + m1 / C.amu ∧
    cms = einc * (a + m1 / C.amu) / (a + m1 / C.amu + C.mn)
  mn : 0 < C.mn
  pi2 : 0 < C.pi2
  rate : 0 < C.rate
  energy : 0 < einc
  width : 0 < w
  sep : 0 ≤ sn
  low : w / 2 ≤ sn + cms
  high : sn + cms ≤ 38
  fits : sn + cms < w * ((N : ℝ) - 1 / 2)

end CGMF.ExcSpec

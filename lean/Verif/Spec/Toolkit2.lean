import Verif.Spec.Toolkit
import Verif.Model.Toolkit2

/-! # Energies, bins and neutrons of events, for the further statements about the toolkit -/

namespace CGMF.Toolkit

open CGMF.Parser

/-- The pre-fission neutrons of an event: none unless the number recorded is positive. -/
def preNeutrons (p : PyFrag × PyFrag) : List Vec4 := if 0 < p.2.npn then p.2.pren else []

/-- All neutrons of an event, in the laboratory. -/
def allNeutrons (p : PyFrag × PyFrag) : List Vec4 := p.1.lab ++ p.2.lab ++ preNeutrons p

/-- Energy carried away by a list of particles. -/
def energy (ns : List Vec4) : ℚ := (ns.map (·.e)).sum

/-- The numbers recorded are those of the particles listed. -/
def Counted (p : PyFrag × PyFrag) : Prop :=
  p.1.nn = p.1.lab.length ∧ p.2.nn = p.2.lab.length ∧ 0 ≤ p.2.npn ∧ (0 < p.2.npn → p.2.npn = p.2.pren.length) ∧
    p.1.ng = p.1.phot.length ∧ p.2.ng = p.2.phot.length

instance (p : PyFrag × PyFrag) : Decidable (Counted p) := by unfold Counted; infer_instance

/-- Total kinetic energy of an event. -/
def tke (p : PyFrag × PyFrag) : ℚ := p.1.ke + p.2.ke

/-- Events with a total kinetic energy in `[x, y)`. -/
def between (x y : ℚ) (ps : List (PyFrag × PyFrag)) : List (PyFrag × PyFrag) :=
  ps.filter fun p => decide (x ≤ tke p ∧ tke p < y)

/-- Length of the direction of a neutron. -/
noncomputable def dirLen (x : Vec4) : ℝ := Real.sqrt ((x.u : ℝ) ^ 2 + (x.v : ℝ) ^ 2 + (x.w : ℝ) ^ 2)

/-- Scalar product of a momentum and a direction. -/
def pdot (p : ℚ × ℚ × ℚ) (x : Vec4) : ℚ := p.1 * x.u + p.2.1 * x.v + p.2.2 * x.w

end CGMF.Toolkit

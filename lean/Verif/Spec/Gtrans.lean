import Verif.Model.Gtrans
import Verif.Spec.Cascade
import Verif.Model.Optical

/-! # What gamma-ray transmission coefficients should be -/

namespace CGMF.Spec.Gam

open Real

/-- A resonance with positive energy, width and strength. -/
def Physical (g : Gam.Gdr) : Prop := 0 < g.energy ∧ 0 < g.width ∧ 0 < g.sigma

/-- Brink-Axel strength of one resonance for multipolarity `l`, in 1/MeV^(2l+1): `8.67e-8` mb⁻¹MeV⁻² and the
Lorentzian of centre `E` and width `Γ`. -/
noncomputable def brinkAxel (l : Nat) (E Γ σ eg : ℝ) : ℝ :=
  (26 / 10 ^ 8) / (2 * l + 1) * σ * (eg * Γ ^ 2 / ((eg ^ 2 - E ^ 2) ^ 2 + eg ^ 2 * Γ ^ 2)) / eg ^ (2 * l - 2)

/-- Kopecky-Uhl strength of one E1 resonance at nuclear temperature `T`. -/
noncomputable def kopeckyUhl (E Γ σ eg T : ℝ) : ℝ :=
  let Γ' := fun x : ℝ => Γ * (x ^ 2 + 4 * π ^ 2 * T ^ 2) / E ^ 2
  (26 / 10 ^ 8) / 3 * σ * Γ * (eg * Γ' eg / ((eg ^ 2 - E ^ 2) ^ 2 + eg ^ 2 * Γ' eg ^ 2) + 7 / 10 * Γ' 0 / E ^ 3)

/-- `T = 2π · g · eg^(2l+1) · f` with the global factor `g`. -/
noncomputable def ofStrength (l : Nat) (eg f : ℝ) : ℝ := 2 * π * (314035 / 100000) * eg ^ (2 * l + 1) * f

end CGMF.Spec.Gam

import Verif.Model.Float

/-!
# The boost of a photon in floating-point arithmetic

kinematics.cpp:199-234, the loop over the photons in `boost`, with every operation rounded (Model/Float).  Over exact numbers it is in
Model/Kinematics.  `sin`, `cos` and `acos` of the library are parameters.
-/

namespace CGMF.Fp

variable (fl : ℝ → ℝ)

/-- Functions of the C library. -/
structure Library where
  sin : ℝ → ℝ
  cos : ℝ → ℝ
  acos : ℝ → ℝ

/-- A vector of length `e` along the drawn direction: kinematics.cpp:207-209 and 222-224. -/
def along (L : Library) (e c phi : ℝ) : ℝ × ℝ × ℝ :=
  (fl (e * c), fl (fl (e * L.sin (L.acos c)) * L.cos phi), fl (fl (e * L.sin (L.acos c)) * L.sin phi))

/-- What is stored for a photon: energy in the laboratory, momentum in the frame of the fragment and in the laboratory. -/
structure Boosted where
  energy : ℝ
  cm : ℝ × ℝ × ℝ
  lab : ℝ × ℝ × ℝ

/-- kinematics.cpp:216-217: the Doppler shift `Eg*sqrt(1.0-b*b)/(1.0-b*cos(cmTheta))` with `b = pf/Mf`. -/
noncomputable def doppler (L : Library) (pf mf eg c : ℝ) : Option ℝ := do
  let b ← fdiv fl pf mf
  let s ← fsqrt fl (fl (1 - fl (b * b)))
  fdiv fl (fl (eg * s)) (fl (1 - fl (b * L.cos (L.acos c))))

/-- kinematics.cpp:199-234: one photon of energy `eg` from a fragment of momentum `pf` and mass `mf`, with the random numbers `r1`
and `r2`. -/
noncomputable def photonBoost (L : Library) (twopi pf mf eg r1 r2 : ℝ) : Option Boosted := do
  let phi := fl (twopi * r1)
  let c := isoCos fl r2
  let e ← doppler fl L pf mf eg c
  pure ⟨e, along fl L eg c phi, along fl L e c phi⟩

end CGMF.Fp

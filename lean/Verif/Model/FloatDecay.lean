import Verif.Model.Float

/-!
# Energies of a decay step in floating-point arithmetic

The energy mesh of a nucleus, the test whether a neutron channel is open, the energy of the final state within its bin and the
energy of the emitted particle, with every operation rounded (`fl`, see Model/Float).  The same code over exact numbers is in
Model/HF and Model/Cascade.
-/

namespace CGMF.Fp

variable (fl : ℝ → ℝ)

/-- `ENERGY_BIN`: the `double` nearest to 0.05 (cgmfEvents.cpp:224). -/
noncomputable def energyBin : ℝ := 3602879701896397 / 2 ^ 56

/-- setup.cpp:424-432 `binenergy`; all widths are `ENERGY_BIN` (setup.cpp:128). -/
noncomputable def binEnergy : Nat → ℝ
  | 0 => fl (energyBin * (1 / 2))
  | k + 1 => fl (binEnergy k + energyBin)

open Classical in
/-- setup.cpp:137-145: the first bin whose energy exceeds the maximum, from bin `k` on; `none` when there is none below
`MAX_ENERGY_BIN`, and the program stops (147). -/
noncomputable def searchBin (E : ℝ) : Nat → Nat → Option Nat
  | 0, _ => none
  | n + 1, k => if E < binEnergy fl k then some k else searchBin E n (k + 1)

/-- setup.cpp:149 `ntotal`: the bin found, less one, plus two. -/
noncomputable def total (E : ℝ) : Option Nat := (searchBin fl E 2500 0).map (· + 1)

/-- setup.cpp:117-118, 155-162: energy of bin `k` in a mesh of `n` bins; the last one and those after it are zero. -/
noncomputable def excitation (E : ℝ) (n k : Nat) : ℝ :=
  if k + 1 < n then fl (fl (E - binEnergy fl k) + fl (energyBin * (1 / 2))) else 0

open Classical in
/-- setup.cpp:169-174: the first bin from `k` on, among the `n` bins left, whose energy is below `top`. -/
noncomputable def firstBelow (ex : Nat → ℝ) (top : ℝ) : Nat → Nat → Option Nat
  | 0, _ => none
  | n + 1, k => if ex k < top then some k else firstBelow ex top n (k + 1)

open Classical in
/-- setup.cpp:165-176 `ncont`: the number of bins of the continuum of a mesh of `n` bins; `top` is the energy of the highest level. -/
noncomputable def contBins (E : ℝ) (n : Nat) (top : ℝ) : Nat :=
  if top = 0 then n - 1
  else if top < E then
    match firstBelow (excitation fl E n) top (n - 1) 1 with
    | some k => k - 1
    | none => 0
  else 0

/-- Energy of an emitted neutron, `E - x - S` (specmc.cpp:677), and of the channel in stattrans.cpp:44, 75. -/
noncomputable def ecms (E x S : ℝ) : ℝ := fl (fl (E - x) - S)

/-- Energy of an emitted photon or electron, `E - x` (specmc.cpp:672). -/
noncomputable def egamma (E x : ℝ) : ℝ := fl (E - x)

/-- specmc.cpp:356: upper end of bin `k` of a mesh `ex`. -/
noncomputable def upperEnd (ex : Nat → ℝ) (k : Nat) : ℝ := if k = 0 then ex 0 else fl (fl (ex (k - 1) + ex k) * (1 / 2))

/-- specmc.cpp:357-358: lower end, not below the highest level `top`. -/
noncomputable def lowerEnd (ex : Nat → ℝ) (top : ℝ) (k : Nat) : ℝ := max (fl (fl (ex (k + 1) + ex k) * (1 / 2))) top

/-- specmc.cpp:361: the energy of the final state, `emin + (emax-emin)*rng_cgm()`. -/
noncomputable def within (ex : Nat → ℝ) (top : ℝ) (k : Nat) (r : ℝ) : ℝ :=
  fl (lowerEnd fl ex top k + fl (fl (upperEnd fl ex k - lowerEnd fl ex top k) * r))

/-- An emission: a photon (or conversion electron) or a neutron with its separation energy, and the energy of the state reached. -/
inductive Emission where
  | photon (x : ℝ)
  | neutron (S x : ℝ)

/-- The state reached. -/
def Emission.reached : Emission → ℝ
  | .photon x => x
  | .neutron _ x => x

/-- The energy spent on separation. -/
def Emission.cost : Emission → ℝ
  | .photon _ => 0
  | .neutron S _ => S

/-- The energies stored for a sequence of emissions from a state at energy `E` (specmc.cpp:666-678). -/
noncomputable def recorded : ℝ → List Emission → List ℝ
  | _, [] => []
  | E, .photon x :: l => egamma fl E x :: recorded x l
  | E, .neutron S x :: l => ecms fl E x S :: recorded x l

/-- The energy of the last state. -/
def lastEnergy : ℝ → List Emission → ℝ
  | E, [] => E
  | _, e :: l => lastEnergy e.reached l

end CGMF.Fp

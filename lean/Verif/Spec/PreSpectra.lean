import Verif.Model.PreSpectra
import Mathlib.Data.Real.Basic

/-! Vocabulary of the statements on the spectra of pre-fission neutrons. -/

namespace CGMF.Spec

open CGMF.Grid

/-- The grids of the nuclei `0..n` of the chain: nucleus `i` starts at `E i`, has its highest level at `el i`, and loses the separation
energy of a neutron to the next one. -/
structure Grids (el E : Nat → ℝ) (ms : List (Mesh ℝ)) (sep : List ℝ) (w : ℝ) (n N : Nat) : Prop where
  width : 0 < w
  grid : ∀ i ≤ n, ∃ m, ms[i]? = some m ∧ setup w N (el i) (E i) = .ok m
  loses : ∀ i < n, ∃ q, sep[i]? = some q ∧ 0 ≤ q ∧ E (i + 1) = E i - q

/-- Optical model and level density: cross sections are positive at positive energies, level densities are positive for an excited
nucleus and never negative. -/
structure Emits (sigma rho : Nat → ℝ → ℝ) : Prop where
  cross : ∀ i e, 0 < e → 0 < sigma i e
  density : ∀ i x, 0 ≤ rho i x
  densityPos : ∀ i x, 0 < x → 0 < rho i x

end CGMF.Spec

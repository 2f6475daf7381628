import Verif.Model.Prefission
import Mathlib.MeasureTheory.Measure.Lebesgue.Basic

/-!
# Law of the energies of pre-fission neutrons

The nuclei of the chain have bins of width `w`; in bin `k` the last nucleus, which starts at `En`, has energy
`En - k*w`, and it can only be reached when this is at least its barrier `b`.  A neutron that takes the chain from
bin `k` to bin `k+j` has the energy `j*w`, spread evenly over one bin.
-/

namespace CGMF.Spec

open MeasureTheory CGMF.Pre

/-- The part of the bin of width `w` around `e` that lies in `A`, as a fraction of the bin. -/
noncomputable def share (w e : ℝ) (A : Set ℝ) : ENNReal := volume (A ∩ Set.Ioc (e - w / 2) (e + w / 2)) / ENNReal.ofReal w

/-- Number of bins for the first neutron: those strictly above the barrier. -/
noncomputable def openFirst (w En b : ℝ) : Nat := ⌈(En - b) / w⌉.toNat

/-- Number of bins for a later neutron from bin `k`: those at or above the barrier. -/
noncomputable def openLater (w En b : ℝ) (k : Nat) : Nat := (⌊(En - k * w - b) / w⌋ + 1).toNat

/-- Probability of the `j`-th of `m` bins when the bins are taken in proportion to `s`. -/
noncomputable def portion (s : Nat → ℝ) (m j : Nat) : ENNReal := ENNReal.ofReal (s j / ∑ i ∈ Finset.range m, s i)

open scoped Classical in
/-- Probability that the energies of the neutrons `i, i+1, ...` lie in the given sets and the last nucleus is left with an
energy in `X`, starting from bin `k`.  A neutron that finds less than one bin above the barrier gets the energy `tiny`. -/
noncomputable def laterChance (y : Sys ℝ) (En b : ℝ) (X : Set ℝ) : List (Set ℝ) → Nat → Nat → ENNReal
  | [], _, k => if En - k * y.w ∈ X then 1 else 0
  | A :: As, i, k =>
    if En - k * y.w - b < y.w then (if y.tiny ∈ A then 1 else 0) * laterChance y En b X As (i + 1) k
    else ∑ j ∈ Finset.range (openLater y.w En b k),
      portion (fun j => (y.sp i k).getD (k + j) 0) (openLater y.w En b k) j * share y.w (j * y.w) A *
        laterChance y En b X As (i + 1) (k + j)

/-- The same for all neutrons, the first one from the spectrum `sp1`. -/
noncomputable def allChance (y : Sys ℝ) (En b : ℝ) (X : Set ℝ) (A : Set ℝ) (As : List (Set ℝ)) : ENNReal :=
  ∑ j ∈ Finset.range (openFirst y.w En b), portion (fun j => y.sp1.getD j 0) (openFirst y.w En b) j *
    share y.w (j * y.w) A * laterChance y En b X As 2 j

/-- The spectra are non-negative and not identically zero over the open bins. -/
structure SpectraOK (y : Sys ℝ) (n : Nat) (En b : ℝ) : Prop where
  first : ∀ j < openFirst y.w En b, 0 ≤ y.sp1.getD j 0
  firstPos : 0 < ∑ j ∈ Finset.range (openFirst y.w En b), y.sp1.getD j 0
  later : ∀ i, 2 ≤ i → i ≤ n → ∀ k : Nat, y.w ≤ En - k * y.w - b →
    (∀ j < openLater y.w En b k, 0 ≤ (y.sp i k).getD (k + j) 0) ∧
      0 < ∑ j ∈ Finset.range (openLater y.w En b k), (y.sp i k).getD (k + j) 0

/-- The energies lie in the given sets, one by one, and the energy left in `X`. -/
def InAll (As : List (Set ℝ)) (X : Set ℝ) : Set (Option (List ℝ) × ℝ) :=
  {z | ∃ es, z.1 = some es ∧ List.Forall₂ (fun e A => e ∈ A) es As ∧ z.2 ∈ X}

end CGMF.Spec

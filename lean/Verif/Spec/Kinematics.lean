import Mathlib.Analysis.Real.Sqrt
import Mathlib.Algebra.BigOperators.Fin
import Mathlib.Data.Fin.VecNotation
import Verif.Model.Basics

/-!
# Vocabulary for the kinematics properties

Independent of the model of the code: vectors, kinetic energy, momentum, and the momentum a user
computes from an energy and three direction cosines.
-/

namespace CGMF.Spec

open CGMF

noncomputable section

/-- Scalar product. -/
def dot (u v : Fin 3 → ℝ) : ℝ := ∑ i, u i * v i

/-- Non-relativistic kinetic energy of mass `m` at velocity `v`. -/
def kinetic (m : ℝ) (v : Fin 3 → ℝ) : ℝ := m * dot v v / 2

/-- Non-relativistic kinetic energy of mass `m` with momentum `p`. -/
def kineticOf (m : ℝ) (p : Fin 3 → ℝ) : ℝ := dot p p / (2 * m)

/-- Unit vectors. -/
def IsUnit3 (v : Fin 3 → ℝ) : Prop := dot v v = 1

/-- `p` is the momentum of a particle of mass `m` whose energy and direction cosines are returned by
four getter calls. -/
def MomentumShown (m : ℝ) (e u v w : Res ℝ) (p : Fin 3 → ℝ) : Prop :=
  ∃ e' u' v' w', e = .ok e' ∧ u = .ok u' ∧ v = .ok v' ∧ w = .ok w' ∧
    p = Real.sqrt (2 * m * e') • ![u', v', w']

/-- Three getter calls return a unit vector. -/
def UnitShown (u v w : Res ℝ) : Prop :=
  ∃ u' v' w', u = .ok u' ∧ v = .ok v' ∧ w = .ok w' ∧ u' ^ 2 + v' ^ 2 + w' ^ 2 = 1

/-- Doppler shift of a photon of rest-frame energy `e` and rest-frame direction `n` emitted by a source
moving with velocity `b` (in units of `c`): `γ (1 + b·n) e`. -/
def doppler (b n : Fin 3 → ℝ) (e : ℝ) : ℝ := (1 + dot b n) / Real.sqrt (1 - dot b b) * e

end

end CGMF.Spec

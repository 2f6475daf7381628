import Verif.Proofs.InitialLaw
import Verif.Model.Gauss
import Mathlib.Probability.Distributions.Gaussian.Real

/-!
# The setting of the law of the initial conditions of a pair

`Setting` fixes one pair of fragments: temperature-ratio sharing with level density parameters from a table, spin
parameters from tables, a normal total kinetic energy, and a momentum routine that works from a threshold on.
-/

namespace CGMF.Law

open CGMF.Frag CGMF.Pre CGMF.Gauss

/-- Energy `E` available to pair `p` of the nucleus `c`, `q` its Q-value, `m` and `s` mean and width of the kinetic energy,
`e0` the least kinetic energy for which the momenta are defined. -/
structure Setting {M : Type} (v : Env ℝ M) (a0 : Int) (c : Comp ℝ) (p : Pair) (E q m s e0 : ℝ) : Prop where
  exp : v.exp = Real.exp
  nj : 0 < v.nj
  rt : ∃ ratio, v.opt = .rt ratio
  ldp : ∃ dflt grid tab, v.ldp = fun z e => lookup dflt grid tab z e
  b2 : ∃ k alpha tabs, v.b2 = fun Z A U => spinParameter k alpha tabs U A Z
  tke : ∃ av sd acn resc t, v.tke p.ah = drawTKE Real.log Real.sqrt av sd acn resc p.ah ∧ 0 ≤ p.ah ∧ p.ah ≤ acn ∧
    av[(max p.ah (acn - p.ah)).toNat]? = some t ∧ sd[(max p.ah (acn - p.ah)).toNat]? = some s ∧ m = resc * t
  width : s ≠ 0
  boost : Works (Set.Ici e0) fun t => v.boost t p (a0 - c.ac)
  masses : ∃ ml mh, v.mass (1000 * p.zl + p.al) = .ok ml ∧ v.mass (1000 * p.zh + p.ah) = .ok mh ∧ q = c.mx - ml - mh
  energy : E = q + (c.einc + c.sn)
  least : e0 ≤ E

/-- At total excitation energy `txe` the energies are shared as `u` and the spin parameters are `bl`, `bh`. -/
def Shared {M : Type} (v : Env ℝ M) (fuel : Nat) (p : Pair) (txe : ℝ) (u : ℝ × ℝ) (bl bh : ℝ) : Prop :=
  share v.ldp v.tol v.opt fuel p txe = .ok u ∧ v.b2 p.zl p.al u.1 = .ok bl ∧ v.b2 p.zh p.ah u.2 = .ok bh ∧ bl ≠ 0 ∧ bh ≠ 0

end CGMF.Law

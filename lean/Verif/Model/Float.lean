import Mathlib.Analysis.Real.Sqrt
import Mathlib.Algebra.Order.Floor.Ring
import Verif.Model.Kinematics

/-!
# Directions, velocities and table indices in floating-point arithmetic

The parts of the code below are modelled with every operation rounded: `fl` stands for the rounding of the result of one
`double` operation (in a C++ implementation that evaluates `double` expressions operation by operation, without contraction to
fused operations and without extended precision).  `none` is "not a number": the square root of a negative number or a division by zero.
Sine and cosine of the library are parameters.  Overflow is not modelled.
-/

namespace CGMF.Fp

variable (fl : ℝ → ℝ)

/-- A `double` division. -/
noncomputable def fdiv (a b : ℝ) : Option ℝ := if b = 0 then none else some (fl (a / b))

/-- The function `sqrt`, correctly rounded as IEEE 754 asks. -/
noncomputable def fsqrt (a : ℝ) : Option ℝ := if a < 0 then none else some (fl (Real.sqrt a))

/-- `sqrt(vx*vx+vy*vy+vz*vz)` (specmc.cpp:976, 985, 999, 1009; kinematics.cpp:59; as a loop in cgmfEvents.cpp:440-444 and
kinematics.cpp:190-193). -/
noncomputable def length3 (x y z : ℝ) : Option ℝ := fsqrt fl (fl (fl (fl (x * x) + fl (y * y)) + fl (z * z)))

/-- The three direction cosines `vx/v`, `vy/v`, `vz/v` (specmc.cpp:977-979, 986-988, 1001-1003, 1011-1013; cgmfEvents.cpp:445-447). -/
noncomputable def dircos (x y z : ℝ) : Option (ℝ × ℝ × ℝ) := do
  let v ← length3 fl x y z
  let a ← fdiv fl x v
  let b ← fdiv fl y v
  let c ← fdiv fl z v
  pure (a, b, c)

/-- `2.0*rng_cgm()-1.0` (kinematics.cpp:201, 281, 371; FissionFragments.cpp:1487). -/
def isoCos (r : ℝ) : ℝ := fl (fl (2 * r) - 1)

/-- `sqrt(1.-cosTheta*cosTheta)` (kinematics.cpp:75, 283, 386; FissionFragments.cpp:1488). -/
noncomputable def sinOf (c : ℝ) : Option ℝ := fsqrt fl (fl (1 - fl (c * c)))

/-- `costhetaF`, `sinthetaF` in `boost` (kinematics.cpp:59, 74-75). -/
noncomputable def fragmentAngle (x y z : ℝ) : Option (ℝ × ℝ) := do
  let v ← length3 fl x y z
  let c ← fdiv fl z v
  let s ← sinOf fl c
  pure (c, s)

/-- The velocities that `neutron_emission_boost` computes (kinematics.cpp:263, 281-292) for a neutron of centre-of-mass energy `e`
emitted isotropically by a nucleus of momentum `p` and mass `mc`: in the centre of mass and in the laboratory. `mn` is the
neutron mass, `twopi` the constant, `r1`, `r2` the random numbers. -/
noncomputable def emitVelocity (sin cos : ℝ → ℝ) (twopi mn mc e : ℝ) (p : ℝ × ℝ × ℝ) (r1 r2 : ℝ) : Option ((ℝ × ℝ × ℝ) × (ℝ × ℝ × ℝ)) := do
  let phi := fl (twopi * r1)
  let c := isoCos fl r2
  let s ← sinOf fl c
  let q ← fdiv fl (fl (2 * e)) mn
  let v ← fsqrt fl q
  let x := fl (fl (v * s) * cos phi)
  let y := fl (fl (v * s) * sin phi)
  let z := fl (v * c)
  let px ← fdiv fl p.1 mc
  let py ← fdiv fl p.2.1 mc
  let pz ← fdiv fl p.2.2 mc
  pure ((x, y, z), (fl (x + px), fl (y + py), fl (z + pz)))

/-- Cosine of row `i` of a table with `n+1` rows, `2.0*i/(THETA_STEPS-1)-1.0` (FissionFragments.cpp:4808, 5419); row 0 is set to
-1 (4805, 5416), which is the same value. -/
noncomputable def tabCos (n i : Nat) : ℝ := fl (fl (fl (2 * i) / n) - 1)

/-- The running sums of `1.0+(anisotropyCoefficient-1.0)*cosTheta*cosTheta` (FissionFragments.cpp:4806-4811). -/
noncomputable def tabSum (a : ℝ) (n : Nat) : Nat → ℝ
  | 0 => 0
  | i + 1 => fl (tabSum a n i + fl (1 + fl (fl (fl (a - 1) * tabCos fl n (i + 1)) * tabCos fl n (i + 1))))

/-- The table of cosines and cumulative probabilities (FissionFragments.cpp:4805-4817), with `n+1` rows. -/
noncomputable def tabRows (a : ℝ) (n : Nat) : List (ℝ × ℝ) :=
  (List.range (n + 1)).map fun i => (tabCos fl n i, fl (tabSum fl a n i / tabSum fl a n n))

/-- The interpolation `((x2-x1)*rnum - y1*x2 + y2*x1)/(y2-y1)` between two rows (kinematics.cpp:279, 384). -/
noncomputable def interpolate (p q : ℝ × ℝ) (r : ℝ) : Option ℝ :=
  fdiv fl (fl (fl (fl (fl (q.1 - p.1) * r) - fl (p.2 * q.1)) + fl (q.2 * p.1))) (fl (q.2 - p.2))

/-- The cosine drawn from a table (kinematics.cpp:266-279, 374-384).  Without a row the variables are zero, and zero is divided by
zero, in the first place, and not initialised in the second. -/
noncomputable def tableCos (t : List (ℝ × ℝ)) (r : ℝ) : Option ℝ :=
  match Kin.cdfScan t r none with
  | none => none
  | some (p, q) => interpolate fl p q r

/-- `int(rng_cgm()*numberSpins)` (FissionFragments.cpp:2042), `floor(rng_cgm()*(nemit+1))` (5332), `floor(rng_cgm()*kfmax)` (5381). -/
noncomputable def drawIndex (n : Int) (r : ℝ) : Int := ⌊fl (r * n)⌋

/-- `floor(rng_cgm()*(Amax-Amin+1)+Amin)` (FissionFragments.cpp:1349, 1361) with `n = Amax-Amin+1`, and
`(int)(kstart+(kfmax-kstart)*rng_cgm())` (5457) with `n = kfmax-kstart`. -/
noncomputable def drawFrom (lo n : Int) (r : ℝ) : Int := ⌊fl (fl (r * n) + lo)⌋

/-- The choice of a state by running sums: the first one at which the sum reaches the random number (specmc.cpp:430-485 for the next
state of a decay with the populations in the order continuum, levels, continuum and levels after a neutron; 565-571 for the photons
of a level; 603-609 for the initial spin and parity).  `none`: the loops end without a choice. -/
noncomputable def pickSum (s r : ℝ) : List ℝ → Option Nat
  | [] => none
  | p :: t => if r ≤ fl (s + p) then some 0 else (pickSum (fl (s + p)) r t).map (· + 1)

end CGMF.Fp

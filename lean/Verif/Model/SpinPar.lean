import Verif.Model.Fragments

/-!
# The spin parameter of a fragment

Model of `spinParameter2` (FissionFragments.cpp 5039-5056) together with the two tables it reads and writes:
`getDeformation` (4413-4421) and `getTemperature` (4483-4500) store their default the first time a missing nucleus is
asked for, in arrays of the whole process.  The messages they print are not modelled.
-/

namespace CGMF.Frag

variable {K : Type} [Field K] [LinearOrder K] [FloorRing K]

/-- `beta2`, `temperatureEnergyGrid` and `temperatures`. -/
structure Tables (K : Type) where
  beta : List K
  grid : List K
  temp : List (List K)
  deriving DecidableEq, Repr

/-- `getDeformation` (4413-4421): the value returned and the table left; the mark of a missing entry is -100, the default
0.2. -/
def deformation (beta : List K) (zaid : Int) : Res (K × List K) :=
  (readAt beta zaid).bind fun b =>
    if b = -100 then
      (writeAt beta zaid (1 / 5)).bind fun beta' => (readAt beta' zaid).bind fun b' => .ok (b', beta')
    else .ok (b, beta)

/-- `getTemperature` (4483-4500): a row that starts with zero is first filled with 5.0. -/
def temperature (grid : List K) (temp : List (List K)) (zaid : Int) (e : K) : Res (K × List (List K)) :=
  (readAt temp zaid).bind fun row =>
    (if row.head? = some 0 then writeAt temp zaid (List.replicate row.length 5) else .ok temp).bind fun temp' =>
      (readAt temp' zaid).bind fun row' => (interpRow grid row' e).bind fun t => .ok (t, temp')

/-- `NEUTRONMASS`, `PROTONMASS`, `amuMeV`, `hbarc` (physics.h) and `pow(A, 5/3)`. -/
structure Phys (K : Type) where
  mn : K
  mp : K
  amu : K
  hbarc : K
  pow53 : Int → K

/-- The moment of inertia (5045-5049), the spin-scaling factor `alpha` included. -/
def inertia (k : Phys K) (alpha b : K) (A : Int) : K :=
  2 / 5 * k.pow53 A * (6 / 5) * (6 / 5) * (1 / 2) * (k.mn + k.mp) * k.amu * (1 + 31 / 100 * b + 11 / 25 * b ^ 2) * alpha

/-- `spinParameter2(U, A, Z)` (5039-5056): the deformation used (5046) is read again from the table after
`getDeformation`. -/
def spinParameter2 (k : Phys K) (alpha : K) (t : Tables K) (U : K) (A Z : Int) : Res (K × Tables K) :=
  (deformation t.beta (1000 * Z + A)).bind fun d =>
    (readAt d.2 (Z * 1000 + A)).bind fun b =>
      (temperature t.grid t.temp (1000 * Z + A) U).bind fun e =>
        .ok (inertia k alpha b A * e.1 / k.hbarc / k.hbarc, ⟨d.2, t.grid, e.2⟩)

/-- A request for a spin parameter: spin-scaling factor in force, energy, mass and charge number. -/
structure Ask (K : Type) where
  alpha : K
  U : K
  A : Int
  Z : Int

/-- A history of requests: the tables after it. -/
def asked (k : Phys K) : List (Ask K) → Tables K → Res (Tables K)
  | [], t => .ok t
  | q :: qs, t => (spinParameter2 k q.alpha t q.U q.A q.Z).bind fun r => asked k qs r.2

/-- The value alone. -/
def spinParameter (k : Phys K) (alpha : K) (t : Tables K) (U : K) (A Z : Int) : Res K :=
  (spinParameter2 k alpha t U A Z).bind fun r => .ok r.1

end CGMF.Frag

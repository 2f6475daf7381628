import Mathlib.Algebra.Order.Floor.Ring
import Mathlib.Data.Rat.Floor
import Mathlib.Algebra.Order.Field.Rat
import Verif.Model.Text

/-!
# Selection of the fragment anisotropy

Model of `computeFragmentAngularDistribution` (FissionFragments.cpp:4779-4798) up to the choice of
`anisotropyCoefficient`, and of the energy grid made by `readAnisotropy` (FissionFragments.cpp:4684-4690).  The result depends on
the rounding of `float` and `double`, so binary floating point is modelled here: a finite value is a rational
number and every operation is rounded to the nearest value with `p` significant bits, ties to even.
Overflow, subnormal numbers and extended intermediate precision are not modelled.
-/

namespace CGMF.Aniso

open CGMF.Text (roundHE)

/-- Binary exponent of a positive rational: `2^expo x <= x < 2^(expo x + 1)` (`expo_spec`). -/
def expo (x : ℚ) : Int :=
  let e : Int := (Nat.log2 x.num.natAbs : Int) - Nat.log2 x.den
  if (2 : ℚ) ^ e ≤ x then e else e - 1

/-- Nearest number with `p` significant bits, for non-negative arguments. -/
def fl (p : Nat) (x : ℚ) : ℚ :=
  if x = 0 then 0 else (roundHE (x / 2 ^ (expo x - (p - 1 : Int))) : ℚ) * 2 ^ (expo x - (p - 1 : Int))

/-- Rounding to `float`. -/
def f32 (x : ℚ) : ℚ := fl 24 x

/-- Rounding to `double`. -/
def f64 (x : ℚ) : ℚ := fl 53 x

/-- C `roundf` of a non-negative number: halves away from zero. -/
def roundf (x : ℚ) : Int := ⌊x + 1 / 2⌋

/-- `roundf(incidentEnergy0*10)` (4791): the product is a `double`, converted to `float` for the call. -/
def tenths (e : ℚ) : Int := roundf (f32 (f64 (e * 10)))

/-- `roundf(incidentEnergy0*10)/10` (4791): a `float` divided by an `int` is a `float`. -/
def key (e : ℚ) : ℚ := f32 (tenths e / 10)

/-- `anisotropy[0][i+1] = Estep*i` (4688-4690), with `Estep` the `double` read from the file. -/
def gridAt (step : ℚ) (i : Nat) : ℚ := f64 (step * i)

/-- `nEsteps = (int) (Emax-Emin)/Estep + 1` (4686): the cast binds to the difference. -/
def steps (emin emax step : ℚ) : Int := ⌊f64 (f64 (⌊f64 (emax - emin)⌋ / step) + 1)⌋

/-- One row of `anisotropy`: target and coefficients. -/
structure Row where
  zaid : ℚ
  coef : List ℚ
  deriving Repr, DecidableEq

/-- The loop over the energy grid (4790-4795): the first matching energy. -/
def findEnergy (step k : ℚ) (n : Nat) : Option Nat :=
  (List.range n).find? fun j : Nat => decide (k = gridAt step j)

/-- The loop over the rows (4788-4797): a later row for the same target overrides an earlier one. `num` is
`NUM_EGRID`; a grid position beyond the row is undefined. -/
def coefficient (step : ℚ) (num : Nat) (zaidt : Int) (e : ℚ) : List Row → ℚ → Res ℚ
  | [], c => .ok c
  | r :: rs, c =>
    if r.zaid = zaidt then
      match findEnergy step (key e) num with
      | none => coefficient step num zaidt e rs c
      | some j =>
        match r.coef[j]? with
        | none => .ub
        | some v => coefficient step num zaidt e rs v
    else coefficient step num zaidt e rs c

/-- Lines 4782-4798: `anisotropyCoefficient` for the target `zaidt` (`ZAIDc-1`), `flag` is `anisotropy_flag`. -/
def select (step : ℚ) (num : Nat) (rows : List Row) (flag : Bool) (zaidt : Int) (e : ℚ) : Res ℚ :=
  if flag then coefficient step num zaidt e rows 1 else .ok 1

end CGMF.Aniso

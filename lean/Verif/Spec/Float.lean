import Verif.Tactics
import Mathlib.Data.Real.Basic

/-!
# Binary floating-point numbers

Numbers `m * 2^e` with `|m| < 2^p` and `emin ≤ e`, subnormal ones included.  For the type `double`, `p = 53` and `emin = -1074`.
A rounding to nearest gives a closest such number; which one on a tie is left open, so that the theorems hold for every tie rule.
There is no largest exponent: overflow is not described.
-/

namespace CGMF.Fp

/-- `x` is a number of the format. -/
def IsFloat (p : Nat) (emin : Int) (x : ℝ) : Prop := ∃ m e : Int, |m| < 2 ^ p ∧ emin ≤ e ∧ x = m * (2 : ℝ) ^ e

/-- `fl` rounds to a closest number of the format. -/
structure Nearest (p : Nat) (emin : Int) (fl : ℝ → ℝ) : Prop where
  float : ∀ x, IsFloat p emin (fl x)
  near : ∀ x y, IsFloat p emin y → |fl x - x| ≤ |y - x|

/-- Rounding to `double`. -/
abbrev Double (fl : ℝ → ℝ) : Prop := Nearest 53 (-1074) fl

/-- A value of type `double`. -/
abbrev IsDouble (x : ℝ) : Prop := IsFloat 53 (-1074) x

end CGMF.Fp

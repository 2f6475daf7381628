import Verif.Model.Twister
import Verif.Model.Float

/-!
# Accept and reject with the numbers of the engine

The loops that draw an entry of a table: masses and charges (FissionFragments.cpp:1345-1371), the initial spin (2041-2043), the number of
pre-fission neutrons (5331-5333) and the outgoing energy of the first one (5380-5382).  All have the same form: draw an index uniformly, draw
a second number, accept if it does not exceed the entry.  Each random number is made of two 32-bit words of the engine, and all
operations round.
-/

namespace CGMF.Pick

open CGMF.Twist CGMF.Fp

/-- The two outputs of the engine one random number is made of. -/
abbrev Pair := Word × Word

/-- `rng_cgm()` (rngcgm.h:45) on a pair of outputs. -/
noncomputable def rng (fl : ℝ → ℝ) (w : Pair) : ℝ := number fl w.1 w.2

/-- The parity of a fragment (FissionFragments.cpp:1468-1469). -/
noncomputable def parity (fl : ℝ → ℝ) (w : Pair) : Int := if rng fl w < 1 / 2 then -1 else 1

/-- One turn of the loop, on the outputs for its two random numbers: the index `floor(rng*n + lo)` (FissionFragments.cpp:1349, 1361; `lo` is
zero at 2042, 5332 and 5381 and not added there; adding it changes nothing), then `rng*m > table[i]` leads to another turn (1350, 1371; 1362,
1366; 5333; 5382).  At 2043 there is no factor, `m` is one.  Simplification: `table` is a function on all integers; C125 and C54 are about
indices outside the arrays. -/
noncomputable def attempt (fl : ℝ → ℝ) (lo n : Int) (table : Int → ℝ) (m : ℝ) (w : Pair × Pair) : Option Int :=
  if table (drawFrom fl lo n (rng fl w.1)) < fl (rng fl w.2 * m) then none else some (drawFrom fl lo n (rng fl w.1))

/-- The loop on a list of outputs: the first accepted index, `none` if the list ends before. -/
noncomputable def loop (fl : ℝ → ℝ) (lo n : Int) (table : Int → ℝ) (m : ℝ) : List (Pair × Pair) → Option Int
  | [] => none
  | w :: l =>
    match attempt fl lo n table m w with
    | some i => some i
    | none => loop fl lo n table m l

/-- The sum of the weights as the loop over the spins makes it (FissionFragments.cpp:2032-2037), from zero. -/
noncomputable def total (fl : ℝ → ℝ) (weight : Nat → ℝ) : Nat → ℝ
  | 0 => 0
  | k + 1 => fl (total fl weight k + weight k)

/-- The normalised table (FissionFragments.cpp:2039). -/
noncomputable def spinTable (fl : ℝ → ℝ) (weight : Nat → ℝ) (n : Nat) (j : Int) : ℝ := fl (weight j.toNat / total fl weight n)

end CGMF.Pick

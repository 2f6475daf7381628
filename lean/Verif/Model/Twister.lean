import Mathlib.Data.Real.Basic
import Verif.Model.Driver

/-!
# The random engine inside `UniformRNG`

`Model/Driver.lean` takes the engine as a parameter.  Here it is the one the code names: `std::mt19937` with
`std::uniform_real_distribution<>` (libcgmf/include/rngcgm.h:34-35).  Both come with the C++ library, not with CGMF; the engine is
modelled after its definition in the C++ standard ([rand.eng.mers] with the parameters of `mt19937` in [rand.predef]), the
distribution after `generate_canonical` of the standard ([rand.util.canonical]) together with the guard of libstdc++ that
replaces a result of 1 by the largest `double` below 1.
-/

namespace CGMF.Twist

/-- A 32-bit word of the engine. -/
abbrev Word := BitVec 32

/-- One step of the seeding recurrence: word `i` from word `i-1` (initialization multiplier 1812433253). -/
def seedStep (i : Nat) (x : Word) : Word := 1812433253#32 * (x ^^^ (x >>> 30)) + BitVec.ofNat 32 i

/-- `n` seeding steps from word `i`: the words `i`, `i+1`, ... -/
def seedWords : Nat → Nat → Word → List Word
  | 0, _, _ => []
  | n + 1, i, x => x :: seedWords n (i + 1) (seedStep (i + 1) x)

/-- rngcgm.h:43 `gen.seed(seed)`: the argument is taken modulo `2^32`; the state is a sequence of 624 words. -/
def seeded (s : Int) : List Word := seedWords 624 0 (BitVec.ofInt 32 s)

/-- The state of a default-constructed engine: seed 5489. -/
def unseeded : List Word := seeded 5489

/-- The highest bit of one word followed by the lowest 31 bits of the next. -/
def join (x y : Word) : Word := (x &&& 0x80000000#32) ||| (y &&& 0x7fffffff#32)

/-- Multiplication by the matrix of the engine. -/
def twist (y : Word) : Word := (y >>> 1) ^^^ (if y.getLsbD 0 then 0x9908b0df#32 else 0#32)

/-- The next word of the sequence from the last 624 ones. -/
def fresh (st : List Word) : Word := st.getD 397 0 ^^^ twist (join (st.getD 0 0) (st.getD 1 0))

/-- The output function of the engine. -/
def temper (x : Word) : Word :=
  let a := x ^^^ (x >>> 11)
  let b := a ^^^ ((a <<< 7) &&& 0x9d2c5680#32)
  let c := b ^^^ ((b <<< 15) &&& 0xefc60000#32)
  c ^^^ (c >>> 18)

/-- One call of the engine: the output and the new state. -/
def next (st : List Word) : Word × List Word := (temper (fresh st), st.tail ++ [fresh st])

/-- The first `n` outputs of the engine. -/
def words : Nat → List Word → List Word
  | 0, _ => []
  | n + 1, st => (next st).1 :: words n (next st).2

/-- `generate_canonical<double, 53>`: two outputs make one number, `(g0 + g1*2^32) / 2^64` in `double` arithmetic. -/
noncomputable def unguarded (fl : ℝ → ℝ) (g0 g1 : Word) : ℝ := fl (fl (g0.toNat + fl (g1.toNat * 2 ^ 32)) / 2 ^ 64)

/-- rngcgm.h:45 `dist(gen)` with `dist` default-constructed, that is with bounds 0 and 1: the number above, or the largest
`double` below 1 in place of 1, times `1 - 0` plus `0`. -/
noncomputable def number (fl : ℝ → ℝ) (g0 g1 : Word) : ℝ :=
  let c := if 1 ≤ unguarded fl g0 g1 then 1 - 1 / 2 ^ 53 else unguarded fl g0 g1
  fl (fl (c * 1) + 0)

/-- The engine of rngcgm.h in the form the model of the driver wants it. -/
noncomputable def engine (fl : ℝ → ℝ) : Driver.Engine (List Word) ℝ where
  default := unseeded
  seeded := seeded
  next st := (number fl (next st).1 (next (next st).2).1, (next (next st).2).2)

end CGMF.Twist

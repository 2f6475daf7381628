import Verif.Model.Chain
import Verif.Spec.Cascade

/-!
# Decays one after the other

A program that generates events decays one fragment after the other with the same global arrays.  What a caller sees of one decay
is the history of emitted particles and the record with the lists of neutrons and photons.
-/

namespace CGMF.MC

variable {K : Type} [Field K] [LinearOrder K]

/-- A fragment to decay: the tables and parameters, charge, mass, excitation energy, spin index and parity. -/
structure Job (K : Type) where
  tb : Tables K
  par : Par K
  z : Int
  a : Int
  e : K
  j : Int
  p : Int

/-- The fragment is decayed with the arrays as `st` left them and the energies `stale` of the nuclei. -/
def Job.run (b : Job K) (st : St K) (stale : Nat → K) : Rnd K (St K) := fragment b.tb b.par st stale b.z b.a b.e b.j b.p

/-- What the caller sees: the emitted particles and the record made of them. -/
def visible (nn ng ni : Nat) (st : St K) : List (Hist K) × Res (Rec K) := (st.hs, record nn ng ni st)

/-- The fragments are decayed one after the other in one program; before each decay the energies of the nuclei are whatever the
program left there. -/
def oneProgram (nn ng ni : Nat) : List (Job K × (Nat → K)) → St K → Rnd K (List (List (Hist K) × Res (Rec K)))
  | [], _ => pure []
  | (b, stale) :: l, st => do
    let st ← b.run st stale
    let r ← oneProgram nn ng ni l st
    pure (visible nn ng ni st :: r)

/-- Every fragment is decayed in a program of its own, which starts with the arrays `st0` and energies `e0`. -/
def ownPrograms (nn ng ni : Nat) (st0 : St K) (e0 : Nat → K) : List (Job K) → Rnd K (List (List (Hist K) × Res (Rec K)))
  | [] => pure []
  | b :: l => do
    let st ← b.run st0 e0
    let r ← ownPrograms nn ng ni st0 e0 l
    pure (visible nn ng ni st :: r)

/-- A fragment that can be decayed: at least one nucleus, non-negative bin width, at least one spin, non-negative transmission
coefficients and level densities, and a ground state for every isotope. -/
structure Job.Sound (b : Job K) : Prop where
  room : 0 < b.tb.maxc
  width : 0 ≤ b.par.w
  spins : 0 < b.par.maxJ
  phys : ∀ c e, HF.PhysNonneg (b.par.phys c e)
  levels : ∀ k : Nat, b.tb.levels b.z (b.a - k) ≠ []

end CGMF.MC

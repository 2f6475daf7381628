import Verif.Model.Basics
import Verif.Tactics

/-!
# Discrete levels and nuclei

libcgmf/include/structur.h:118-168, 197-250.
-/

namespace CGMF

/-- One gamma branch of a level: final level, branching ratio, and the fraction that is a photon
rather than a conversion electron (structur.h:128-130; the three vectors are zipped). -/
structure Branch (K : Type) where
  fstate : Nat
  branch : K
  gratio : K
  deriving DecidableEq, Repr

/-- A discrete level (structur.h:121-142); `ngamma` is the length of `branches`.  The spin is a
half-integer in the data files (`-1` for unknown) and is stored doubled, `spin2 = 2*spin`. -/
structure Level (K : Type) where
  energy : K
  spin2 : Int
  parity : Int
  halflife : K
  branches : List (Branch K)
  deriving DecidableEq, Repr

/-- The parts of `Nucleus` (structur.h:200-229) that do not change during the decay of one fragment:
`Z`, `A`, the discrete levels (`ndisc` is their number), the neutron channel: separation energy, status
and index of the residual nucleus (`next`, meaningful when `status`). -/
structure Nuc (K : Type) where
  Z : Int
  A : Int
  levels : List (Level K)
  sn : K
  status : Bool
  next : Nat
  deriving DecidableEq, Repr

end CGMF

import Verif.Model.Levels
import Mathlib.Algebra.Order.Floor.Ring

/-!
# Deterministic gamma cascade

libcgmf/src/gamcas.cpp: `specGammaCascade` (27-48), `specGammaDiscrete` (53-77);
libcgmf/src/specmain.cpp: `specFindEnergyBin` (392-414).
-/

namespace CGMF.Gamcas

variable {K : Type} [Field K] [LinearOrder K] [FloorRing K]

/-- `specFindEnergyBin(e,de)` (392-414): `none` is the result -1. `N` is MAX_ENERGY_BIN, `eps` the
constant 1e-4. The cast `(int)` of a non-negative number is the floor. -/
def findBin (N : Nat) (eps e de : K) : Option Nat :=
  if |e| ≤ eps then some 0
  else if e < 0 ∨ (N : K) * de < e then none
  else if e < de * (1 / 2) then some 0
  else
    let k := ⌊(e + 1 / 2 * de) / de + eps⌋
    if de * k ≤ e + 1 / 2 * de + eps ∧ e + 1 / 2 * de < de * (k + 1) then some k.toNat else none

/-- State of the cascade: level populations `lpop` (MAX_LEVELS entries), spectrum `spc` (N entries),
count `m`. -/
structure St (K : Type) where
  lpop : List K
  spc : List K
  m : Nat
  deriving DecidableEq, Repr

/-- One branch of level `i0` (gamcas.cpp:33-44); `ic` is INCLUDE_INTERNAL_CONVERSION, `bin` the binning
function. The population of `i0` is read at each branch, as in the code. -/
def branchStep (ic : Bool) (bin : K → Option Nat) (lev : List (Level K)) (i0 : Nat) (b : Branch K)
    (st : St K) : Res (St K) :=
  (readAt st.lpop i0).bind fun p0 =>
    (readAt st.lpop b.fstate).bind fun p1 =>
      (writeAt st.lpop b.fstate (p1 + p0 * b.branch)).bind fun lpop =>
        if 0 < p0 * b.branch then
          (readAt lev i0).bind fun l0 =>
            (readAt lev b.fstate).bind fun l1 =>
              match bin (l0.energy - l1.energy) with
              | none => .ok ⟨lpop, st.spc, st.m⟩
              | some k =>
                (readAt st.spc k).bind fun x =>
                  (writeAt st.spc k (x + if ic then p0 * b.branch * b.gratio else p0 * b.branch)).bind
                    fun spc => .ok ⟨lpop, spc, st.m + 1⟩
        else .ok ⟨lpop, st.spc, st.m⟩

/-- All branches of level `i0`: the inner loop (32-45), also the whole of `specGammaDiscrete` with
`i0 = nstart-1` (59-75). -/
def branches (ic : Bool) (bin : K → Option Nat) (lev : List (Level K)) (i0 : Nat) :
    List (Branch K) → St K → Res (St K)
  | [], st => .ok st
  | b :: bs, st => (branchStep ic bin lev i0 b st).bind (branches ic bin lev i0 bs)

/-- `specGammaDiscrete(nstart,spc,n)` with `i0 = nstart-1` (53-77). -/
def discrete (ic : Bool) (bin : K → Option Nat) (lev : List (Level K)) (i0 : Nat) (st : St K) : Res (St K) :=
  (readAt lev i0).bind fun l => branches ic bin lev i0 l.branches st

/-- `specGammaCascade` for the levels `i0 = n, n-1, ..., 1` (31-46), `n = nstart-1`. -/
def cascade (ic : Bool) (bin : K → Option Nat) (lev : List (Level K)) : Nat → St K → Res (St K)
  | 0, st => .ok st
  | n + 1, st => (discrete ic bin lev (n + 1) st).bind (cascade ic bin lev n)

end CGMF.Gamcas

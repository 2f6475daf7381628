import Verif.Model.Cascade

/-!
# Initial populations

libcgmf/src/popinit.cpp: `statSetupInitialPopulationSpec` (39-57), `statSetupInitialPopulationBeta`
(63-89), `statPopinitLevden` (113-142), `statPopinitTransmission` (148-187), `statPopinitSingle`
(191-206).  Populations of one energy bin: `(even, odd)` for each spin index below `MAX_J`; all are
cleared before.  The spin distribution `ldSpinDistribution` (levden.cpp:82-92) is a parameter `sd`, the
parity distribution (levden.cpp:98-101) is one half for both parities.
-/

namespace CGMF.MC

open CGMF.Grid CGMF.HF

variable {K : Type} [Field K] [LinearOrder K]

/-- Cleared populations. -/
def noPop (maxJ : Nat) : List (K × K) := List.replicate maxJ (0, 0)

/-- popinit.cpp:191-206 `statPopinitSingle` on arbitrary populations; `jint` is `(int)j0`. -/
def addSingle (jint p0 : Int) (pop : List (K × K)) : List (K × K) :=
  pop.mapIdx fun j x =>
    if (j : Int) = jint then (if p0 < 0 then (0, x.2 + 1) else (x.1 + 1, 0)) else x

/-- Divide all populations. -/
def divPop (m : K) (pop : List (K × K)) : List (K × K) := pop.map fun x => (x.1 / m, x.2 / m)

/-- popinit.cpp:63-89 `statSetupInitialPopulationBeta`, one bin.  `low` is `j0 <= 0.5`; the spins
`(int)(j0 - 1.0)` and `(int)(j0 + 1.0)` are `jint - 1` and `jint + 1` for the half-integral `j0 > 0.5`. -/
def popBeta (maxJ : Nat) (low : Bool) (jint p0 : Int) : List (K × K) :=
  if low then divPop 2 (addSingle (jint + 1) p0 (addSingle jint p0 (noPop maxJ)))
  else divPop 3 (addSingle (jint + 1) p0 (addSingle jint p0 (addSingle (jint - 1) p0 (noPop maxJ))))

/-- popinit.cpp:124-133: the spin index at which the loop stops, if it does before `MAX_J`. -/
def levdenStop (maxJ : Nat) (sd : Nat → K) (cut : K) : Option Nat :=
  (List.range maxJ).find? fun j => decide (2 * sd j < cut ∧ 2 < j)

/-- Number of spins filled. -/
def levdenFilled (maxJ : Nat) (sd : Nat → K) (cut : K) : Nat :=
  match levdenStop maxJ sd cut with
  | some j => j + 1
  | none => maxJ

/-- `jmax`, zero if the loop runs to its end. -/
def levdenJmax (maxJ : Nat) (sd : Nat → K) (cut : K) : Nat :=
  match levdenStop maxJ sd cut with
  | some j => j
  | none => 0

/-- popinit.cpp:134: `se + so`. -/
def levdenSum (maxJ : Nat) (sd : Nat → K) (cut : K) : K :=
  ((List.range (levdenFilled maxJ sd cut)).map fun j => sd j * (1 / 2) + sd j * (1 / 2)).sum

/-- popinit.cpp:113-142 `statPopinitLevden`: the division runs over `j <= jmax` only. -/
def popLevden (maxJ : Nat) (sd : Nat → K) (cut : K) : List (K × K) :=
  (List.range maxJ).map fun j =>
    if j < levdenFilled maxJ sd cut then
      if j ≤ levdenJmax maxJ sd cut then
        (sd j * (1 / 2) / levdenSum maxJ sd cut, sd j * (1 / 2) / levdenSum maxJ sd cut)
      else (sd j * (1 / 2), sd j * (1 / 2))
    else (0, 0)

/-- popinit.cpp:155-174: what the entrance channel adds to the state of spin index `j` and parity `p0`;
`ig` is the half-integer offset, `it` and `pt` are the target spin (doubled) and parity. -/
def entrance (ig it pt : Int) (lmax : Int) (tran : Nat → K) (j : Nat) (p0 : Int) : K :=
  (((waves lmax).filter fun w =>
      pl w.1 = p0 * pt ∧ ¬ (2 * (j : Int) + ig < |2 * (w.1 : Int) + w.2 - it| ∨
        2 * (w.1 : Int) + w.2 + it < 2 * (j : Int) + ig)).map
    fun w => (2 * (j : K) + (ig : K) + 1) * tran (tjIndex w)).sum

/-- popinit.cpp:176-180: the normalisation. -/
def entranceSum (maxJ : Nat) (ig it pt : Int) (lmax : Int) (tran : Nat → K) : K :=
  ((List.range maxJ).map fun j : Nat =>
    entrance ig it pt lmax tran j 1 + entrance ig it pt lmax tran j (-1)).sum

/-- popinit.cpp:148-187 `statPopinitTransmission` with `jmax = MAX_J - 1`; `none` is the division by
zero (not-a-number populations) when nothing couples. -/
def popTransmission (maxJ : Nat) (ig it pt : Int) (lmax : Int) (tran : Nat → K) : Option (List (K × K)) :=
  if entranceSum maxJ ig it pt lmax tran = 0 then none
  else some ((List.range maxJ).map fun j : Nat =>
    (entrance ig it pt lmax tran j 1 / entranceSum maxJ ig it pt lmax tran,
     entrance ig it pt lmax tran j (-1) / entranceSum maxJ ig it pt lmax tran))

end CGMF.MC

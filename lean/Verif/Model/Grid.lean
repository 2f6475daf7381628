import Verif.Model.Levels

/-!
# Continuum energy grid

libcgmf/src/setup.cpp `statSetupEnergyBin` (107-186) and `binenergy` (421-432), for the uniform grid
(`HAVE_PRIVATE_ENERGY_GRID` is not defined); specmain.cpp `specFindEnergyBin` (392-414).
`ENERGY_BIN` (0.05, cgmfEvents.cpp:47) and `MAX_ENERGY_BIN` (2500) are parameters `w` and `N`.
-/

namespace CGMF.Grid

variable {K : Type} [Field K] [LinearOrder K]

/-- setup.cpp:424-432 `binenergy` with all widths equal to `w`: `d[0]*0.5 + d[1] + ... + d[x]`. -/
def binEnergy (w : K) : Nat → K
  | 0 => w * (1 / 2)
  | x + 1 => binEnergy w x + w

/-- The grid of a nucleus.  The C array `excitation` has `MAX_ENERGY_BIN` entries that are zero from
`ntotal` on. -/
structure Mesh (K : Type) where
  ntotal : Nat
  ncont : Nat
  exc : Nat → K

/-- setup.cpp:138-147: one more than `khigh`, i.e. the first bin whose upper edge exceeds the
excitation energy; none below `MAX_ENERGY_BIN` stops the process. -/
def firstAbove (w : K) (N : Nat) (E : K) : Res Nat :=
  match (List.range N).find? (fun k => decide (E < binEnergy w k)) with
  | some k => .ok k
  | none => .exit

/-- setup.cpp:149-163: bin energies; `excitation[ntotal-1] = 0`. -/
def excOf (w E : K) (ntotal : Nat) (k : Nat) : K :=
  if k + 1 < ntotal then E - binEnergy w k + w * (1 / 2) else 0

/-- setup.cpp:165-175: number of bins above the discrete levels. -/
def ncontOf (E elmax : K) (ntotal : Nat) (exc : Nat → K) : Nat :=
  if elmax = 0 then ntotal - 1
  else if elmax < E then
    match (List.range' 1 (ntotal - 1)).find? (fun k => decide (exc k < elmax)) with
    | some k => k - 1
    | none => 0
  else 0

/-- setup.cpp:107-186 `statSetupEnergyBin`; populations are cleared by the caller's model. -/
def setup (w : K) (N : Nat) (elmax E : K) : Res (Mesh K) := do
  let f ← firstAbove w N E
  let ntotal := f + 1
  let exc := excOf w E ntotal
  pure ⟨ntotal, ncontOf E elmax ntotal exc, exc⟩

/-- setup.cpp:109-110: energy of the highest discrete level; `lev[0]` when there is none, whose
default energy is zero. -/
def elmax (levels : List (Level K)) : K :=
  match levels.getLast? with
  | some l => l.energy
  | none => 0

end CGMF.Grid

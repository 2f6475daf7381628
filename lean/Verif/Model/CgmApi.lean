import Verif.Model.Cascade
import Verif.Model.Gamcas

/-!
# The `cgm` interface: decay of one excited nucleus

libcgmf/src/cgmfEvents_capi.cpp `cgm` (48-58); libcgmf/src/cgmfEvents.cpp `cgmEvent::cgmEvent(int, double,
double)` (125-187); libcgmf/src/specmc.cpp `specMCMain` (211-321), the spectrum part of `mcStoreHistory`
(682-691), `mcSampleStart` (598-616), `mcNormalizeSpectrum` (778-783), `recordEmittedParticles` (851-892);
libcgmf/src/output.cpp `cgmGetSpectra` (35-60).

The decay itself is `mcHistoryLoop` or `mcGammaCascade` (Model/Cascade); what `cgm` returns is a function of
the particles stored in the history, in the order of their storage.  `HAVE_PRIVATE_ENERGY_GRID` is not
defined.  `nsim` is 1 (cgmfEvents.cpp:134) and `targE` is 0, so there is no laboratory boost.
-/

namespace CGMF.CgmApi

open CGMF.MC CGMF.Gamcas

section Lines
variable {K : Type} [Field K] [LinearOrder K] [FloorRing K]

/-- specmc.cpp:685-691: one count in bin `k`, only `if (k > 0)`; the bin -1 is `none`. -/
def count (N : Nat) (eps de : K) (spc : List K) (e : K) : Res (List K) :=
  match findBin N eps e de with
  | none => .ok spc
  | some 0 => .ok spc
  | some (k + 1) => (readAt spc ((k + 1 : Nat) : Int)).bind fun x => writeAt spc ((k + 1 : Nat) : Int) (x + 1)

/-- specmc.cpp:688-691: `spc[2]` when the nucleus is the same (photon or conversion electron), `spc[3]` for a
neutron. -/
def tally (N : Nat) (eps de : K) (s : List K × List K) (h : Hist K) : Res (List K × List K) :=
  if h.id = .neutron then (count N eps de s.2 h.ep).bind fun t => .ok (s.1, t)
  else (count N eps de s.1 h.ep).bind fun t => .ok (t, s.2)

/-- All particles of the history. -/
def tallyAll (N : Nat) (eps de : K) : List (Hist K) → List K × List K → Res (List K × List K)
  | [], s => .ok s
  | h :: hs, s => (tally N eps de s h).bind (tallyAll N eps de hs)

/-- specmc.cpp:778-783 `mcNormalizeSpectrum`. -/
def normalise (n : Nat) (spc : List K) : List K := spc.map (· / (n : K))

/-- output.cpp:28 `lowfilter`. -/
def lowfilter (low x : K) : K := if |x| < low then 0 else x

/-- output.cpp:42-44: `(emin+emax)/2` of bin `k`. -/
def lineEnergy (de : K) (k : Nat) : K :=
  ((if 0 < k then ((k : K) - 1 / 2) * de else 0) + ((k : K) + 1 / 2) * de) / 2

/-- output.cpp:41-59 for one of the two spectra: the loop over the bins from `k` on with the lines so far. -/
def lines (cap : Nat) (low de : K) : Nat → List K → List K → List K
  | _, [], acc => acc
  | k, x :: xs, acc =>
    lines cap low de (k + 1) xs
      (if 0 < lowfilter low x then if acc.length < cap then acc ++ [lineEnergy de k] else acc else acc)

/-- What `cgm` returns for the particles `hs` of the decay: photon lines and neutron lines. -/
def cgm (N cap : Nat) (eps low de : K) (hs : List (Hist K)) : Res (List K × List K) :=
  (tallyAll N eps de hs (List.replicate N 0, List.replicate N 0)).bind fun s =>
    .ok (lines cap low de 0 (normalise 1 s.1) [], lines cap low de 0 (normalise 1 s.2) [])

end Lines

section Start
variable {K : Type} [Field K] [LinearOrder K]

/-- Entries in the order of the loop of `mcSampleStart` (specmc.cpp 605-610) from spin index `j` on: spin index and parity
with the population. -/
def startEntries : Nat → List (K × K) → List ((Int × Int) × K)
  | _, [] => []
  | j, x :: xs => (((j : Int), 1), x.1) :: (((j : Int), -1), x.2) :: startEntries (j + 1) xs

/-- specmc.cpp:598-616 `mcSampleStart`: spin index and parity of the initial state; `pop` has `MAX_J` entries. -/
def sampleStart (pop : List (K × K)) : Rnd K (Int × Int) := do
  let r ← Rnd.draw
  match firstReach r 0 (startEntries 0 pop) with
  | some a => pure a
  | none => pure ((pop.length : Int) - 1, 1)

end Start

section Record
variable {K : Type}

/-- Local arrays of `recordEmittedParticles` (856-866): filled entries and how many entries there are. -/
structure Arrays (K : Type) where
  neutron : List K
  gamma : List K
  ic : List K

/-- specmc.cpp:873-891: one pass of the loop. -/
def recordStep (cap : Nat) (a : Arrays K) (h : Hist K) : Res (Arrays K) :=
  match h.id with
  | .neutron => (push cap a.neutron h.ep).bind fun x => .ok { a with neutron := x }
  | .gamma => (push cap a.gamma h.ep).bind fun x => .ok { a with gamma := x }
  | .ic => (push cap a.ic h.ep).bind fun x => .ok { a with ic := x }

/-- specmc.cpp:851-892 `recordEmittedParticles` over the emitted particles. -/
def recordAll (cap : Nat) : List (Hist K) → Arrays K → Res (Arrays K)
  | [], a => .ok a
  | h :: hs, a => (recordStep cap a h).bind (recordAll cap hs)

end Record

end CGMF.CgmApi

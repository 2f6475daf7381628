import Verif.Model.CgmApi
import Verif.Model.Driver

/-!
# One process that calls `cgm`, `cgmf_genfissevent` and `cgmf_genfissyields` in any order

libcgmf/src/cgmfEvents.cpp: `firstcalc` (49) is shared by the constructors of `cgmEvent` (147-150) and of `cgmfEvent` (388-392);
the window of specmc.cpp:64 is set only in the latter and read by `mcGammaCascade` (specmc.cpp:560) for both.
`cgmfYields` (533) initialises through `cgmfEvent()` (360-364), which leaves `firstcalc` and the window alone.

Not represented: the memory of the objects (Model/Lifecycle, Model/Memory).  The fission event and the yields are parameters: functions
of reaction, window (for events) and random numbers.
-/

namespace CGMF.Mixed

open CGMF.MC CGMF.Grid CGMF.HF CGMF.Driver CGMF.CgmApi

section
variable {K : Type} [Field K] [LinearOrder K] [FloorRing K]

/-- specmc.cpp:211-321 `specMCMain` after the set-up of the chain with `nsim` 1: the particles emitted by a nucleus of energy `E` with
initial populations `pop`.  The terminal entry of `mcHistoryLoop` is not a particle. -/
def singleDecay (par : Par K) (st : St K) (pop : List (K × K)) (E : K) : Rnd K (List (Hist K)) := do
  let n0 ← Rnd.get par.chain[0]?
  let m0 ← Rnd.lift (setup par.w par.nbin (elmax n0.levels) E)
  if m0.ncont = 0 then do
    let f ← cascade par 0 (startLevel n0 m0 E) { st with hs := [] }
    pure f.2.hs
  else do
    let jp ← sampleStart pop
    let st ← historyLoop par st ⟨0, jp.2, jp.1, 0, E, false⟩
    pure st.hs.dropLast

/-- Arguments of `cgm` (cgmfEvents_capi.cpp:48) with what the set-up makes of them; `par.window` is not used. -/
structure Single (K : Type) where
  par : Par K
  st : St K
  pop : List (K × K)
  E : K

/-- The same nucleus with the window in force. -/
def Single.under (a : Single K) (w : K) : Par K := { a.par with window := w }

/-- A call. -/
inductive Ask (K : Type) where
  | cgm (a : Single K)
  | event (rx : Reaction K) (timew : K)
  | yields (rx : Reaction K)

/-- What a call returns. -/
inductive Answer (K Ev Y : Type) where
  | lines (photon neutron : List K)
  | event (e : Ev)
  | yields (y : Y)
  deriving DecidableEq

/-- `firstcalc` and `time_coincidence_window`. -/
structure Globals (K : Type) where
  first : Bool
  window : K
  deriving DecidableEq

/-- At process start (cgmfEvents.cpp:49, specmc.cpp:64). -/
def Globals.init : Globals K := ⟨true, -1⟩

/-- The globals when the decays of a call begin: cgmfEvents.cpp:147-150, 388-392, 360-364. -/
def Globals.enter (g : Globals K) : Ask K → Globals K
  | .cgm _ => { g with first := false }
  | .event _ timew => if g.first then ⟨false, if 0 < timew then timew else g.window⟩ else g
  | .yields _ => g

/-- Constants of the output of `cgm`: number of bins, length of the line arrays, tolerance, filter and bin width
(output.cpp:28-60). -/
structure Const (K : Type) where
  N : Nat
  cap : Nat
  eps : K
  low : K
  de : K

variable {Ev Y : Type}

/-- One call under the window `w`. -/
def answer (c : Const K) (genE : Reaction K → K → Rnd K Ev) (genY : Reaction K → Rnd K Y) (w : K) : Ask K → Rnd K (Answer K Ev Y)
  | .cgm a => do
    let hs ← singleDecay (a.under w) a.st a.pop a.E
    let r ← Rnd.lift (CgmApi.cgm c.N c.cap c.eps c.low c.de hs)
    pure (.lines r.1 r.2)
  | .event rx _ => do
    let e ← genE rx w
    pure (.event e)
  | .yields rx => do
    let y ← genY rx
    pure (.yields y)

/-- A process: the calls one after the other. -/
def process (c : Const K) (genE : Reaction K → K → Rnd K Ev) (genY : Reaction K → Rnd K Y) : Globals K → List (Ask K) → Rnd K (List (Answer K Ev Y))
  | _, [] => pure []
  | g, a :: as => do
    let r ← answer c genE genY (g.enter a).window a
    let rs ← process c genE genY (g.enter a) as
    pure (r :: rs)

end

end CGMF.Mixed

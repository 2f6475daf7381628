import Mathlib.Algebra.Order.Field.Basic
import Verif.Model.Basics

/-!
# The event object: allocation, assembly from the two fragments, getters

Arrays obtained with `new double[n]` hold indeterminate values until written; a cell is
`none` until then and reading it is `ub`.
-/

namespace CGMF.Event

variable {K : Type _} [Field K] [LinearOrder K]

/-- config-ff.h:50 and 51. -/
def maxNeutrons : Nat := 10
/-- config-ff.h:51. -/
def maxGammas : Nat := 50

/-- The parts of `fissionEventType` (config-ff.h:61-104) that the event constructor copies from.
The C arrays have `maxNeutrons` / `maxGammas` entries. -/
structure FragRecord (K : Type _) where
  nu : Nat
  neutronEnergies : List K
  neutronDircosu : List K
  neutronDircosv : List K
  neutronDircosw : List K
  cmNeutronEnergies : List K
  cmNeutronDircosu : List K
  cmNeutronDircosv : List K
  cmNeutronDircosw : List K
  nug : Nat
  photonEnergies : List K
  photonDircosu : List K
  photonDircosv : List K
  photonDircosw : List K
  photonAges : List K

/-- `new double[n]`: indeterminate cells. -/
def alloc (K : Type _) (n : Nat) : List (Option K) := List.replicate n none

/-- `for (int i=0; i<n; i++) body(i)` on a state, stopping at the first `exit`/`ub`;
`i0` is the running index. -/
def forUp {σ : Type _} (body : Nat → σ → Res σ) : Nat → Nat → σ → Res σ
  | _, 0, s => .ok s
  | i0, n + 1, s => do
    let s' ← body i0 s
    forUp body (i0 + 1) n s'

/-- One destination array: cgmfEvents.cpp:454-483 (neutrons) and 485-504 (photons).
The two copy loops, light fragment at offset 0, heavy fragment at offset `nL`;
`f` is the expression stored (a plain copy, the emission time, or time + delay). -/
def assembleCol (f : K → K) (nL nH : Nat) (lf hf : List K) : Res (List (Option K)) := do
  let a ← forUp (fun i (arr : List (Option K)) => do
      let x ← readAt lf i
      writeAt arr i (some (f x))) 0 nL (alloc K (nL + nH))
  forUp (fun i (arr : List (Option K)) => do
      let x ← readAt hf i
      writeAt arr ((i : Int) + nL) (some (f x))) 0 nH a

/-- The arrays of `cgmEvent`/`cgmfEvent` (cgmfEvents.h:112-129, 224-234). -/
structure EventData (K : Type _) where
  neutronNu : Nat
  neutronEnergies : List (Option K)
  neutronDircosu : List (Option K)
  neutronDircosv : List (Option K)
  neutronDircosw : List (Option K)
  neutronAges : List (Option K)
  cmNeutronEnergies : List (Option K)
  cmNeutronDircosu : List (Option K)
  cmNeutronDircosv : List (Option K)
  cmNeutronDircosw : List (Option K)
  photonNu : Nat
  photonEnergies : List (Option K)
  photonDircosu : List (Option K)
  photonDircosv : List (Option K)
  photonDircosw : List (Option K)
  photonAges : List (Option K)
  preNu : Nat
  preEnergies : List (Option K)
  preDircosu : List (Option K)
  preDircosv : List (Option K)
  preDircosw : List (Option K)
  preAges : List (Option K)
  deriving DecidableEq

/-- cgmfEvents.cpp:439-450: laboratory energy and direction of the pre-fission neutrons from
their velocities.  `nmass` is `NEUTRONMASS*amuMeV`. -/
structure PreNeutron (K : Type _) where
  vx : K
  vy : K
  vz : K

/-- Sum of squares, accumulated in the order of cgmfEvents.cpp:442. -/
def PreNeutron.v2 (p : PreNeutron K) : K := 0 + p.vx * p.vx + p.vy * p.vy + p.vz * p.vz

/-- cgmfEvents.cpp:443 with the factor order of the code. -/
def preEnergy (nmass : K) (p : PreNeutron K) : K := 1 / 2 * nmass * p.v2

/-- One pre-fission destination array, cgmfEvents.cpp:440-449. -/
def preCol (g : PreNeutron K → K) (pfn : List (PreNeutron K)) (n : Nat) :
    Res (List (Option K)) :=
  forUp (fun i (arr : List (Option K)) => do
      let p ← readAt pfn i
      writeAt arr i (some (g p))) 0 n (alloc K n)

/-- cgmfEvents.cpp:433-504: multiplicities, allocation and all copy loops.  `time` is the third
constructor argument; `sqrt` is the C library function; `preN` is `ff->Ac0 - ff->Ac`.
The guards `if (neutronNu>0)` etc. only skip empty loops. `preFissionNeutronAges` is allocated
and never written. -/
def assemble (sqrt : K → K) (nmass time : K) (lf hf : FragRecord K)
    (preN : Nat) (pfn : List (PreNeutron K)) : Res (EventData K) := do
  let n (g : FragRecord K → List K) := assembleCol id lf.nu hf.nu (g lf) (g hf)
  let p (f : K → K) (g : FragRecord K → List K) := assembleCol f lf.nug hf.nug (g lf) (g hf)
  let preE ← preCol (preEnergy nmass) pfn preN
  let preU ← preCol (fun q => q.vx / sqrt q.v2) pfn preN
  let preV ← preCol (fun q => q.vy / sqrt q.v2) pfn preN
  let preW ← preCol (fun q => q.vz / sqrt q.v2) pfn preN
  let ne ← n (·.neutronEnergies)
  let nu ← n (·.neutronDircosu)
  let nv ← n (·.neutronDircosv)
  let nw ← n (·.neutronDircosw)
  let na ← assembleCol (fun _ => time) lf.nu hf.nu lf.neutronEnergies hf.neutronEnergies
  let ce ← n (·.cmNeutronEnergies)
  let cu ← n (·.cmNeutronDircosu)
  let cv ← n (·.cmNeutronDircosv)
  let cw ← n (·.cmNeutronDircosw)
  let pe ← p id (·.photonEnergies)
  let pu ← p id (·.photonDircosu)
  let pv ← p id (·.photonDircosv)
  let pw ← p id (·.photonDircosw)
  let pa ← p (fun a => time + a) (·.photonAges)
  pure { neutronNu := lf.nu + hf.nu, neutronEnergies := ne, neutronDircosu := nu,
         neutronDircosv := nv, neutronDircosw := nw, neutronAges := na,
         cmNeutronEnergies := ce, cmNeutronDircosu := cu, cmNeutronDircosv := cv,
         cmNeutronDircosw := cw, photonNu := lf.nug + hf.nug, photonEnergies := pe,
         photonDircosu := pu, photonDircosv := pv, photonDircosw := pw, photonAges := pa,
         preNu := preN, preEnergies := preE, preDircosu := preU, preDircosv := preV,
         preDircosw := preW, preAges := alloc K preN }

/-- Body shared by all indexed getters, cgmfEvents.h:46-108 and 202-218:
`if (index >= 0 && index < nu) return array[index]; else return -1;`. -/
def getter (nu : Nat) (arr : List (Option K)) (index : Int) : Res K :=
  if index ≥ 0 ∧ index < nu then do
    let c ← readAt arr index
    match c with
    | some x => .ok x
    | none => .ub
  else .ok (-1)

/-- cgmfEvents.h:46. -/
def getNeutronEnergy (e : EventData K) := getter e.neutronNu e.neutronEnergies
/-- cgmfEvents.h:50. -/
def getNeutronDircosu (e : EventData K) := getter e.neutronNu e.neutronDircosu
/-- cgmfEvents.h:54. -/
def getNeutronDircosv (e : EventData K) := getter e.neutronNu e.neutronDircosv
/-- cgmfEvents.h:58. -/
def getNeutronDircosw (e : EventData K) := getter e.neutronNu e.neutronDircosw
/-- cgmfEvents.h:62. -/
def getNeutronAge (e : EventData K) := getter e.neutronNu e.neutronAges
/-- cgmfEvents.h:69. -/
def getCmNeutronEnergy (e : EventData K) := getter e.neutronNu e.cmNeutronEnergies
/-- cgmfEvents.h:73. -/
def getCmNeutronDircosu (e : EventData K) := getter e.neutronNu e.cmNeutronDircosu
/-- cgmfEvents.h:77. -/
def getCmNeutronDircosv (e : EventData K) := getter e.neutronNu e.cmNeutronDircosv
/-- cgmfEvents.h:81. -/
def getCmNeutronDircosw (e : EventData K) := getter e.neutronNu e.cmNeutronDircosw
/-- cgmfEvents.h:89. -/
def getPhotonEnergy (e : EventData K) := getter e.photonNu e.photonEnergies
/-- cgmfEvents.h:93. -/
def getPhotonDircosu (e : EventData K) := getter e.photonNu e.photonDircosu
/-- cgmfEvents.h:97. -/
def getPhotonDircosv (e : EventData K) := getter e.photonNu e.photonDircosv
/-- cgmfEvents.h:101. -/
def getPhotonDircosw (e : EventData K) := getter e.photonNu e.photonDircosw
/-- cgmfEvents.h:105. -/
def getPhotonAge (e : EventData K) := getter e.photonNu e.photonAges
/-- cgmfEvents.h:202. -/
def getPreFissionNeutronEnergy (e : EventData K) := getter e.preNu e.preEnergies
/-- cgmfEvents.h:207. -/
def getPreFissionNeutronDircosu (e : EventData K) := getter e.preNu e.preDircosu
/-- cgmfEvents.h:211. -/
def getPreFissionNeutronDircosv (e : EventData K) := getter e.preNu e.preDircosv
/-- cgmfEvents.h:215. -/
def getPreFissionNeutronDircosw (e : EventData K) := getter e.preNu e.preDircosw

/-- cgmfEvents.cpp:125-186, the part of the CGM (non-fission) constructor that fills the event:
multiplicities from the global line counters, allocation, copy of the energies only.
`mclg`/`mcln` are the global arrays of 30 entries. -/
def cgmAssemble (nG nN : Nat) (mclg mcln : List K) : Res (EventData K) := do
  let pe ← forUp (fun i (arr : List (Option K)) => do
      let x ← readAt mclg i
      writeAt arr i (some x)) 0 nG (alloc K nG)
  let ne ← forUp (fun i (arr : List (Option K)) => do
      let x ← readAt mcln i
      writeAt arr i (some x)) 0 nN (alloc K nN)
  let un := alloc K nN
  let ug := alloc K nG
  pure { neutronNu := nN, neutronEnergies := ne, neutronDircosu := un, neutronDircosv := un,
         neutronDircosw := un, neutronAges := un, cmNeutronEnergies := un,
         cmNeutronDircosu := un, cmNeutronDircosv := un, cmNeutronDircosw := un,
         photonNu := nG, photonEnergies := pe, photonDircosu := ug, photonDircosv := ug,
         photonDircosw := ug, photonAges := ug, preNu := 0, preEnergies := [],
         preDircosu := [], preDircosv := [], preDircosw := [], preAges := [] }

end CGMF.Event

import Verif.Model.Chain
import Verif.Model.Mixed

/-!
# A call of `cgm` from its arguments on

libcgmf/src/cgmfEvents_capi.cpp `cgm` (48-58), libcgmf/src/cgmfEvents.cpp `cgmEvent::cgmEvent` (125-187) and `cgmCheckRange` (329-359),
libcgmf/src/specmc.cpp `specMCMain` (211-321).  The parts are in Model/Chain, Model/Grid, Model/Cascade and Model/CgmApi; here they are
put together.  Unknown spins and parities of levels, which `statFixDiscreteLevels` draws at random, are taken as drawn.
-/

namespace CGMF.CgmRange

open CGMF.MC CGMF.Grid CGMF.HF CGMF.Mixed

variable {K : Type} [Field K] [LinearOrder K] [FloorRing K]

/-- cgmfEvents.cpp:329-359 `cgmCheckRange`: true when it returns 0, false when it returns -1.  Nothing calls it. -/
def checkRange (N : Nat) (w : K) (z a : Int) (e : K) : Bool :=
  !(decide (z < 6) || decide (118 < z)) && !(decide (a < 12) || decide (300 < a)) && !decide (e ≤ 0) && !decide (((N : K) - 1) * w ≤ e)

/-- cgmfEvents.cpp:142-143: `int(isotope/1000.0)` and the rest. -/
def split (isotope : Int) : Int × Int := (isotope.tdiv 1000, isotope - 1000 * isotope.tdiv 1000)

/-- setup.cpp:84-95: `max_energy` of the nuclei of the chain. -/
def energies (stale : Nat → K) : List (Nuc K) → Nat → K → List (Nuc K × K)
  | [], _, _ => []
  | n :: ns, i, e => (n, e) :: energies stale ns (i + 1) (if n.status then e - n.sn else stale (i + 1))

/-- specmc.cpp:231-239: mesh and level density parameters of every nucleus; `ld` tells whether parameters are there
(kcksyst.cpp:191-216 stops the process otherwise). -/
def meshes (w : K) (N : Nat) (ld : Int → Int → Res Unit) : List (Nuc K × K) → Res Unit
  | [] => .ok ()
  | x :: xs => do
    let _ ← setup w N (elmax x.1.levels) x.2
    let _ ← ld x.1.Z x.1.A
    meshes w N ld xs

/-- cgmfEvents_capi.cpp:48-58 `cgm` up to the lines returned.  `pop` gives the initial populations for the chain
(popinit.cpp, Model/Popinit); `par.chain` is not used. -/
def call (tb : Tables K) (ld : Int → Int → Res Unit) (par : Par K) (st : St K) (stale : Nat → K) (pop : List (Nuc K) → K → List (K × K))
    (c : Const K) (isotope : Int) (E : K) : Rnd K (List K × List K) := do
  let n ← Rnd.lift (totalNeutrons tb (split isotope).1 (split isotope).2 E)
  let chain ← Rnd.lift (initSystem tb stale (split isotope).1 (split isotope).2 n E)
  let _ ← Rnd.lift (meshes par.w par.nbin ld (energies stale chain 0 E))
  let hs ← singleDecay { par with chain := chain } st (pop chain E) E
  Rnd.lift (CgmApi.cgm c.N c.cap c.eps c.low c.de hs)

end CGMF.CgmRange

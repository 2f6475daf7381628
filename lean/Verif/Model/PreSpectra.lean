import Verif.Model.ExcitonRun
import Verif.Model.Prefission

/-!
# The spectra behind the pre-fission neutrons

libcgmf/src/evapinterface.cpp `evapInterface` (21-54) on the grids of two neighbouring nuclei, and the state that
`getPrefissionNeutronEnergy` (libcgmf/src/FissionFragments.cpp:5347-5469) works on, with the spectra the code builds itself:
2271-2289 for the first neutron, 5438 for the others.  The optical model (`sigma`, one function per daughter nucleus) and the
level density (`rho`) are parameters.
-/

namespace CGMF.Pre

open CGMF.Exc CGMF.Grid

variable {K : Type} [Field K] [LinearOrder K] [FloorRing K]

/-- `evapInterface(pdt,tc,c0,k0,sp)` (evapinterface.cpp:21-54): the `N` entries of `sp`.  `m0`, `m1` are the grids of the nuclei
`c0`, `c0+1`, `q` the separation energy.  `old` are the cross sections left in `tc` by an earlier call; they are not read. -/
def evapInterface (sigma rho : K → K) (old : Nat → K) (N : Nat) (m0 m1 : Mesh K) (q : K) (k0 : Nat) : Res (List K) :=
  let tc := channel sigma old (m0.exc k0) q m1.exc
  (evapSpectrum ((List.range' k0 (m1.ntotal - k0)).map fun k : Nat => ((tc k).1, (tc k).2, rho (m1.exc k)))).bind fun s =>
    .ok ((List.replicate k0 0 ++ s ++ List.replicate N 0).take N)

/-- The `N` entries of a spectrum; zeros stand for the quotients 0/0 of a spectrum without open bins (evapinterface.cpp:45-46). -/
def orZero (N : Nat) : Res (List K) → List K
  | .ok s => s
  | _ => List.replicate N 0

/-- The state of `getPrefissionNeutronEnergy` (FissionFragments.cpp:5347-5469) built on the grids `ms` of the nuclei, with `sp1` the
spectrum of the first neutron; the spectrum of neutron `i` is computed at 5438 from nucleus `i-1` to nucleus `i`. -/
def sysOf (sigma rho : Nat → K → K) (old : Nat → K) (N : Nat) (w tiny : K) (ms : List (Mesh K)) (sep barrier sp1 : List K) : Sys K where
  exc := ms.map fun m => (List.range N).map m.exc
  sep := sep
  barrier := barrier
  w := w
  tiny := tiny
  sp1 := sp1
  sp := fun i k => match ms[i - 1]?, ms[i]?, sep[i - 1]? with
    | some m0, some m1, some q => orZero N (evapInterface (sigma i) (rho i) old N m0 m1 q k.toNat)
    | _, _, _ => List.replicate N 0

end CGMF.Pre

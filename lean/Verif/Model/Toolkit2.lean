import Verif.Model.Toolkit
import Mathlib.Analysis.SpecialFunctions.Pow.Real

/-!
# Analysis of a history file: mean energies, dependence on TKE, photon spectrum, angles, gates

tools/CGMFtk/histories.py, the methods of `Histories` not in `Model/Toolkit.lean`. The conventions are those of
that file: rational numbers, `exit` for an exception, `ub` where there is no value (NaN of a mean of nothing or of
0/0).
-/

namespace CGMF.Toolkit

open CGMF.Parser

/-! ## Mean energies (738-814) -/

/-- `meanList` (738-746): the lists are joined with `+=`. -/
def meanList (xs : List (List ℚ)) : Res ℚ := mean xs.flatten

def nEcm (fs : List PyFrag) : List (List ℚ) := fs.map fun f => f.cm.map (·.e)

/-- The loop over the events in `meanNeutronElab` and `meanPreFissionNeutronElab` (757-759, 795-797): entries with
`nuPE[i]>0` only; the reader stores a list with one zero for an event without pre-fission neutrons (334-336). -/
def preList (fs : List PyFrag) : List ℚ :=
  (((preNu fs).zip (preElab fs)).map fun x => if 0 < x.1 then x.2 else []).flatten

/-- `meanNeutronElab` (749-761). -/
def meanNeutronElab (fs : List PyFrag) : Res ℚ := mean ((nElab fs).flatten ++ preList fs)

/-- `meanNeutronElabLF`, `meanNeutronElabHF` and `meanNeutronElabFragments` (763-773). -/
def meanNeutronElabLF (fs : List PyFrag) : Res ℚ := meanList (evens (nElab fs))
def meanNeutronElabHF (fs : List PyFrag) : Res ℚ := meanList (odds (nElab fs))
def meanNeutronElabFragments (fs : List PyFrag) : Res ℚ := meanList (nElab fs)

/-- `meanNeutronEcmFragments` (777-779). -/
def meanNeutronEcmFragments (fs : List PyFrag) : Res ℚ := meanList (nEcm fs)

/-- `meanPreFissionNeutronElab` (790-801): zero when there are none. -/
def meanPreFissionNeutronElab (fs : List PyFrag) : Res ℚ :=
  if preList fs = [] then .ok 0 else mean (preList fs)

/-- `meanGammaElab`, `meanGammaElabLF` and `meanGammaElabHF` (804-814). -/
def meanGammaElab (fs : List PyFrag) : Res ℚ := meanList (gElab fs)
def meanGammaElabLF (fs : List PyFrag) : Res ℚ := meanList (evens (gElab fs))
def meanGammaElabHF (fs : List PyFrag) : Res ℚ := meanList (odds (gElab fs))

/-! ## Excitation energy, kinetic energy and spin against mass (880-951) -/

/-- `self.TKEpre` (132): one entry per event. -/
def tkes (fs : List PyFrag) : Res (List ℚ) := bcast (· + ·) (evens (fs.map (·.ke))) (odds (fs.map (·.ke)))

/-- `TKE[::2] = t; TKE[1::2] = TKE[::2]` (902-903): every entry twice. -/
def twice (xs : List ℚ) : List ℚ := xs.flatMap fun x => [x, x]

/-- `UA`, `TKEA` and `spinA` (941-951) by `_qA`. -/
def UA (fs : List PyFrag) : Res (List (Int × ℚ)) := qA (masses fs) (fs.map (·.xe))
def TKEA (fs : List PyFrag) : Res (List (Int × ℚ)) := (tkes fs).bind fun t => qA (masses fs) (twice t)
def spinA (fs : List PyFrag) : Res (List (Int × ℚ)) := qA (masses fs) (fs.map (·.j))

/-! ## Averages against the total kinetic energy (957-1013) -/

/-- `np.max` and `np.min` of floating point numbers. -/
def maxQ : List ℚ → Res ℚ
  | [] => .exit
  | x :: xs => .ok (xs.foldl max x)

def minQ : List ℚ → Res ℚ
  | [] => .exit
  | x :: xs => .ok (xs.foldl min x)

/-- Mean of the entries of `q` with `x <= TKE < y`, zero if there are none (992-996). -/
def meanBin (tke q : List ℚ) (x y : ℚ) : Res ℚ :=
  (select (fun t => decide (x ≤ t) && decide (t < y)) tke q).bind fun r => if r = [] then .ok 0 else mean r

/-- The loop `for i in range(nTKE-1)` (991): `m` rows from number `i`. -/
def tkeRows (tke q : List ℚ) (lo : ℚ) : Nat → Nat → Res (List (ℚ × ℚ))
  | 0, _ => .ok []
  | m + 1, i => (meanBin tke q (lo + i) (lo + (i + 1 : Nat))).bind fun y =>
      (tkeRows tke q lo m (i + 1)).bind fun r => .ok ((lo + i, y) :: r)

/-- `_qTKE` (957-997) for the quantities per event: `np.arange(lo,hi)` has `ceil(hi-lo)` entries `lo+i`; the loop does
not reach the last, which keeps the zero of `np.zeros`. -/
def qTKE (tke q : List ℚ) : Res (List (ℚ × ℚ)) :=
  (minQ tke).bind fun lo => (maxQ tke).bind fun hi =>
    let n := ⌈hi - lo⌉.toNat
    (tkeRows tke q lo (n - 1) 0).bind fun r => .ok (r ++ (if n = 0 then [] else [(lo + (n - 1 : Nat), 0)]))

/-- `nubarTKE` and `nubargTKE` (999-1005). -/
def nubarTKE (fs : List PyFrag) : Res (List (ℚ × ℚ)) :=
  (tkes fs).bind fun t => (total (nus fs)).bind fun q => qTKE t (toQ q)

def nubargTKE (fs : List PyFrag) : Res (List (ℚ × ℚ)) :=
  (tkes fs).bind fun t => (total (nugs fs)).bind fun q => qTKE t (toQ q)

/-- `UTKE` and `spinTKE` (1007-1013): the code reads `cgmf.TKEpre` (977, 985). The module defines no name `cgmf`;
`glob` is the value of `cgmf.TKEpre` if some other code put such a name there, `none` (`NameError`) otherwise. The
grid is made from `self.TKEpre` before that. -/
def fragTKE (glob : Option (List ℚ)) (col : PyFrag → ℚ) (fs : List PyFrag) : Res (List (ℚ × ℚ)) :=
  (tkes fs).bind fun t => (minQ t).bind fun lo => (maxQ t).bind fun hi =>
    let n := ⌈hi - lo⌉.toNat
    match glob with
    | none => .exit
    | some t1 => (tkeRows (twice t1) (fs.map col) lo (n - 1) 0).bind fun r =>
        .ok (r ++ (if n = 0 then [] else [(lo + (n - 1 : Nat), 0)]))

def UTKE (glob : Option (List ℚ)) (fs : List PyFrag) : Res (List (ℚ × ℚ)) := fragTKE glob (·.xe) fs
def spinTKE (glob : Option (List ℚ)) (fs : List PyFrag) : Res (List (ℚ × ℚ)) := fragTKE glob (·.j) fs

/-! ## Photon spectrum (1046-1080) -/

/-- The photons that enter (1060-1076). -/
def pfgsEnergies (eth : ℚ) (window : Option (ℚ × ℚ)) (fs : List PyFrag) : Res (List ℚ) :=
  match window with
  | none => .ok ((gElab fs).flatten.filter fun e => decide (eth ≤ e))
  | some (t0, t1) =>
    (bcast (fun a e => decide (t0 ≤ a) && decide (a ≤ t1) && decide (eth ≤ e)) (fs.map (·.ages)).flatten
      (gElab fs).flatten).bind fun mask => select id mask (gElab fs).flatten

/-- `pfgs` (1046-1080): `hlab/degrid/ng*np.mean(self.nugtot)`; the energy grid `edges` is `np.logspace(-1,1,200)` in
the code. -/
def pfgs (eth : ℚ) (window : Option (ℚ × ℚ)) (edges : List ℚ) (fs : List PyFrag) : Res (List ℚ) :=
  (pfgsEnergies eth window fs).bind fun xs => (spectrum edges xs).bind fun y =>
    (total (nugs fs)).bind fun t => (mean (toQ t)).bind fun m => .ok (y.map (· * m))

/-! ## Angles (1086-1294) -/

/-- Energies and directions collected by `nangles` (1156-1177): light fragments, heavy fragments, then, if asked for,
pre-fission neutrons. `dirs` is the list of the laboratory or the centre-of-mass frame. -/
def preDirs (fs : List PyFrag) : List Vec4 :=
  (((preNu fs).zip (odds (fs.map (·.pren)))).map fun x => if 0 < x.1 then x.2 else []).flatten

/-- `ncos[nE>=Eth][:,2]` (1186-1188): an empty list makes a one-dimensional array, and the second index raises
`IndexError`. -/
def thirdCos (eth : ℚ) (ns : List Vec4) : Res (List ℚ) :=
  if ns = [] then .exit else .ok ((ns.filter fun x => decide (eth ≤ x.e)).map (·.w))

/-- `nangles` (1111-1190): all, light, heavy. `withPre` is `includePreFissionNeutrons`, always false in the
centre-of-mass frame. -/
def nangles (eth : ℚ) (dirs : PyFrag → List Vec4) (withPre : Bool) (fs : List PyFrag) : Res (List ℚ × List ℚ × List ℚ) :=
  let light := (evens (fs.map dirs)).flatten
  let heavy := (odds (fs.map dirs)).flatten
  (thirdCos eth (light ++ heavy ++ if withPre then preDirs fs else [])).bind fun a =>
    (thirdCos eth light).bind fun l => (thirdCos eth heavy).bind fun h => .ok (a, l, h)

/-- Length of a momentum: `np.sum(mom**2,axis=1)**(0.5)` (1102, 1234), a real number here. -/
noncomputable def momLen (p : ℚ × ℚ × ℚ) : ℝ := Real.sqrt ((p.1 : ℝ) ^ 2 + (p.2.1 : ℝ) ^ 2 + (p.2.2 : ℝ) ^ 2)

/-- Entry of `FFangles` (1086-1105): no value for a fragment at rest. -/
noncomputable def ffAngle (p : ℚ × ℚ × ℚ) : Res ℝ := if p = (0, 0, 0) then .ub else .ok ((p.2.2 : ℝ) / momLen p)

/-- Evaluation of a function on every entry of an array. -/
def mapRes {α β : Type} (f : α → Res β) : List α → Res (List β)
  | [] => .ok []
  | a :: l => (f a).bind fun b => (mapRes f l).bind fun r => .ok (b :: r)

/-- `FFangles` (1086-1105). -/
noncomputable def FFangles (after : Bool) (fs : List PyFrag) : Res (List ℝ) :=
  mapRes (fun f => ffAngle (if after then f.post else f.pre)) fs

/-- Sum over the products of the components of a neutron direction and a fragment direction (1286-1291). -/
noncomputable def nFcos (p : ℚ × ℚ × ℚ) (x : Vec4) : Res ℝ :=
  if p = (0, 0, 0) then .ub
  else .ok ((x.u : ℝ) * ((p.1 : ℝ) / momLen p) + (x.v : ℝ) * ((p.2.1 : ℝ) / momLen p) + (x.w : ℝ) * ((p.2.2 : ℝ) / momLen p))

/-- `np.sum(ncos[nE>=Eth]*Fcos[nE>=Eth],axis=1)` (1286-1291): there is no axis 1 when the lists are empty. -/
noncomputable def nFsum (eth : ℚ) (ns : List ((ℚ × ℚ × ℚ) × Vec4)) : Res (List ℝ) :=
  if ns = [] then .exit else mapRes (fun x => nFcos x.1 x.2) (ns.filter fun x => decide (eth ≤ x.2.e))

/-- Momentum of the light fragment of each event beside each neutron of the event's list (1250-1274):
`[cosThetaFF[i]]*len(costemp[i])`. -/
def withLight (moms : List (ℚ × ℚ × ℚ)) (ns : List (List Vec4)) : List ((ℚ × ℚ × ℚ) × Vec4) :=
  ((moms.zip ns).map fun x => x.2.map fun n => (x.1, n)).flatten

/-- `nFangles` (1196-1293): all, light, heavy, always with respect to the light fragment (1232). -/
noncomputable def nFangles (eth : ℚ) (after withPre : Bool) (fs : List PyFrag) : Res (List ℝ × List ℝ × List ℝ) :=
  let mom := evens (fs.map fun f => if after then f.post else f.pre)
  let light := withLight mom (evens (fs.map (·.lab)))
  let heavy := withLight mom (odds (fs.map (·.lab)))
  let pre := withLight mom (((preNu fs).zip (odds (fs.map (·.pren)))).map fun x => if 0 < x.1 then x.2 else [])
  (nFsum eth (light ++ heavy ++ if withPre then pre else [])).bind fun a =>
    (nFsum eth light).bind fun l => (nFsum eth heavy).bind fun h => .ok (a, l, h)

/-! ## Fragments with given photon energies (1340-1395) -/

/-- Arguments of `gammaSpec`: a number, a Python list or a numpy array of one dimension. -/
inductive Arg where
  | scalar (x : ℚ)
  | list (xs : List ℚ)
  | array (xs : List ℚ)
  deriving DecidableEq, Repr

/-- The entries as an array (`np.array`, and 1373-1375 for a number). -/
def Arg.entries : Arg → List ℚ
  | .scalar x => [x]
  | .list xs => xs
  | .array xs => xs

/-- `np.shape`. -/
def Arg.shape : Arg → Option Nat
  | .scalar _ => none
  | .list xs => some xs.length
  | .array xs => some xs.length

/-- `np.any(dEgamma<0.)` on the argument itself (1365): a list cannot be compared with a number (`TypeError`). -/
def Arg.anyNeg : Arg → Res Bool
  | .scalar x => .ok (decide (x < 0))
  | .list _ => .exit
  | .array xs => .ok (xs.any fun x => decide (x < 0))

/-- `log[m]` for all `m` (1381-1386). -/
def gates (gs : List ℚ) : List ℚ → List ℚ → List Bool
  | eg :: egs, de :: des => (gs.any fun g => decide (g ≤ eg + de) && decide (eg - de ≤ g)) :: gates gs egs des
  | _, _ => []

/-- `gammaSpec` (1340-1395); `none` is the return without value after a message. -/
def gammaSpec (eg de : Arg) (post : Bool) (fs : List PyFrag) : Res (Option (List (Int × Int))) :=
  if eg.entries.any (fun x => decide (x < 0)) then .ok none
  else de.anyNeg.bind fun neg =>
    if neg then .ok none
    else if eg.shape ≠ de.shape then .ok none
    else .ok (some ((fs.filter fun f => (gates (f.phot.map (·.e)) eg.entries de.entries).all id).map fun f =>
      (f.z, f.a - (if post then 1 else 0) * f.nn)))

end CGMF.Toolkit

import Verif.Model.Exciton
import Verif.Model.Grid

/-!
# The pre-equilibrium spectrum of a neutron-induced reaction, from target and energy to spectrum

libcgmf/src/excinterface.cpp `excitonInterface` (24-129), libcgmf/src/stattrans.cpp
`statStoreContinuumTransmission` (25-51), libcgmf/src/exciton.cpp `preqExcitonModel` (34-192) and `preqEmissionRate`
(199-227), the parameters of libcgmf/src/exciparm.cpp (36-60, 176-184).  The pieces are those of Model/Exciton and
Model/Grid; this file puts them together.

Parameters: the mass table (`me`, which may stop the process), the reaction cross section that `omCalc` returns at a
given energy (`sigma`), `exp`, `pow` and `sqrt`.  The state densities are values of the table-driven function of
Model/Exciton; `val` drops the outcome "read outside the table of factorials", which by `C78_in_table` never occurs for
the configurations of this calculation.
-/

namespace CGMF.Exc

open CGMF.Grid

variable {K : Type} [Field K] [LinearOrder K]

/-- Constants: `AMUNIT`, `NEUTRONMASS`, `ENEUTRON` (physics.h:87, 52, 98), `2π`, and the factor `c` of
exciton.cpp:201. -/
structure Consts (K : Type) where
  amu : K
  mn : K
  en : K
  pi2 : K
  rate : K

/-- The value of a state density or well function (see the head of the file). -/
def val : Res K → K
  | .ok v => v
  | _ => 0

/-- `preqSingleStateDensity` (exciparm.cpp:36-46). -/
def singleDensity (x : Int) : K := (x : K) / (192 / 10)

/-- `preqPairingDelta` (exciparm.cpp:52-60). -/
def pairingDelta (sqrt : K → K) (z a : Int) : K :=
  let n := a - z
  let c : Int := if n.tmod 2 = 1 ∧ z.tmod 2 = 1 then 0 else if n.tmod 2 = 0 ∧ z.tmod 2 = 0 then 2 else 1
  (c : K) * 12 / sqrt (a : K)

/-- `preqPotentialDepth` for a neutron (exciparm.cpp:176-184, `zi == 0`). -/
def potentialDepth (F : Fns K) (e : K) (at_ : Int) : K :=
  let a3 := F.pow (at_ : K) (-(1 / 3))
  let e4 := F.pow e 4
  12 + 26 * e4 / (e4 + F.pow (245 * a3) 4)

/-- The parameters of one channel (exciton.cpp:85-99) for the nucleus `(z,a)` that is left. -/
def spdOf (F : Fns K) (sqrt : K → K) (einc : K) (z a : Int) : SPdens K :=
  ⟨singleDensity z, singleDensity (a - z), pairingDelta sqrt z a, potentialDepth F einc a⟩

/-- The critical number of excitons (exciparm.cpp:73). -/
def critical (sqrt : K → K) (p : SPdens K) : K :=
  138629436111989 / 100000000000000 * (p.gz + p.gn) * sqrt (p.pairing / (p.gz + p.gn)) * 8 / 7

/-- `preqStateDensity` with the pairing correction of the same nucleus (exciparm.cpp:190-213, 66-84). -/
def density (F : Fns K) (sqrt : K → K) (p : SPdens K) (x : K) (e : Exconf) : K :=
  val (stateDensity F (fun n u => pairingCorr F (critical sqrt p) n u p) p x e)

/-- What `statStoreContinuumTransmission` (stattrans.cpp:25-51) leaves in `tc[k].ecms` and `tc[k].sigr` for the bins of
the daughter: `top` is the energy of the parent bin, `sep` the separation energy, `exc` the energies of the daughter and `old`
the cross sections stored before, which stay where the channel is closed. -/
def channel (sigma : K → K) (old : Nat → K) (top sep : K) (exc : Nat → K) (k : Nat) : K × K :=
  let e := top - exc k - sep
  (e, if e < 0 then old k else sigma e)

/-- `wkc[neutron][k]` (exciton.cpp:199-221) for the configuration `e`: `p` are the parameters of the target nucleus, `ot` the
state density of the composite system in this configuration, `rm` the reduced mass and `2` the factor `2s+1`.  The neutron
leaves one neutron particle less. -/
def emitted (F : Fns K) (sqrt : K → K) (C : Consts K) (p : SPdens K) (rm ot : K) (tc : Nat → K × K) (exc : Nat → K)
    (e : Exconf) (k : Nat) : K :=
  let res := e.add 0 0 (-1) 0
  if k = 0 ∨ res.zp < 0 ∨ res.np < 0 then 0
  else emission (C.rate * rm * 2 / ot) (tc k).1 (tc k).2 (density F sqrt p (exc k) res)

/-- The emission rate of a configuration (exciton.cpp:219-226): sum over the bins `1..ntotal-1` times the bin width. -/
def emittedAll (F : Fns K) (sqrt : K → K) (C : Consts K) (p : SPdens K) (rm ot w : K) (tc : Nat → K × K) (exc : Nat → K)
    (ntotal : Nat) (e : Exconf) : K :=
  ((List.range' 1 (ntotal - 1)).map fun k : Nat => emitted F sqrt C p rm ot tc exc e k * w).sum

/-- The content of `prq` in the pass `(i,j)` (exciton.cpp:126-135): `a` is the mass number of the composite nucleus. -/
def pass (F : Fns K) (sqrt : K → K) (C : Consts K) (p : SPdens K) (a : Int) (ex : K) (i j : Nat) : Preeq K :=
  let m := mSquare (a : K) ((2 * i + (2 * j + 1) : Nat) : K) ex
  ⟨ex, density F sqrt p, pauli p.gz p.gn, density F sqrt p ex (confAt i j), C.pi2 * m.1, C.pi2 * m.1, C.pi2 * m.2, C.pi2 * m.2⟩

/-- `preqLpz0` for the initial configuration, one neutron (excilambda.cpp:148-163). -/
def firstZ (F : Fns K) (C : Consts K) (p : SPdens K) (a : Int) (ex : K) : K :=
  let m := mSquare (a : K) 1 ex
  lambdaPlusOne C.pi2 ex (pauli p.gz p.gn ((confAt 0 0).add 1 1 0 0)) 0 1 p.gz p.gn m.1 m.2 (val (finiteWell F 3 1 ex p.wellDepth))

/-- `preqLpn0` for the initial configuration, one neutron (excilambda.cpp:166-181). -/
def firstN (F : Fns K) (C : Consts K) (p : SPdens K) (a : Int) (ex : K) : K :=
  let m := mSquare (a : K) 1 ex
  lambdaPlusOne C.pi2 ex (pauli p.gz p.gn ((confAt 0 0).add 0 0 1 1)) 1 0 p.gn p.gz m.1 m.2 (val (finiteWell F 3 1 ex p.wellDepth))

/-- The bins `0..ntotal-1` of `spc[neutron]` after `preqExcitonModel` (exciton.cpp:34-192): `p0`, `p1` are the parameters of
the composite and of the target nucleus, `a` the mass number of the composite. -/
def excitonModel (F : Fns K) (sqrt : K → K) (C : Consts K) (p0 p1 : SPdens K) (a : Int) (ex rm w : K) (tc : Nat → K × K)
    (exc : Nat → K) (ntotal : Nat) : List K :=
  let q := pass F sqrt C p0 a ex
  let wk (i j : Nat) := emittedAll F sqrt C p1 rm (q i j).omegaTotal w tc exc ntotal (confAt i j)
  let r := ratesOf q (firstZ F C p0 a ex) (firstN F C p0 a ex) wk
  let wkc (i j k : Nat) : K :=
    if (q i j).omegaTotal = 0 then 0 else emitted F sqrt C p1 rm (q i j).omegaTotal tc exc (confAt i j) k
  (List.range ntotal).map (excSpectrum (occupation r).1 r.t1 wkc)

/-- `excitonInterface` (excinterface.cpp:24-129) for the target `(z,a)` and a neutron of laboratory energy `einc`: the
`N = MAX_ENERGY_BIN` entries of `spc[neutron]`.  `el0`, `el1` are the energies of the highest level left in `ncl[0]`,
`ncl[1]` (they only decide `ncont`, which is not used) and `emax1` is the old `ncl[1].max_energy`, used when no channel is open.
The array of transmission coefficients is new, its cross sections are zero (structur.h:288-293). -/
def excitonInterface (F : Fns K) (sqrt : K → K) (C : Consts K) (me : Int → Int → Res K) (sigma : K → K) (w : K) (N : Nat)
    (el0 el1 emax1 : K) (z a : Int) (einc : K) : Res (List K) := do
  let m0 ← me z (a + 1)
  let m1 ← me z a
  let m2 := (a : K) + m1 / C.amu
  let sn := m1 + C.en - m0
  let cms := einc * m2 / (m2 + C.mn)
  let ex := sn + cms
  let g0 ← setup w N el0 ex
  if m1 + C.en - m0 < ex then do
    let g1 ← setup w N el1 (ex - (m1 + C.en - m0))
    let tc := channel sigma (fun _ => 0) (g0.exc 0) (m1 + C.en - m0) g1.exc
    let raw := excitonModel F sqrt C (spdOf F sqrt einc z (a + 1)) (spdOf F sqrt einc z a) (a + 1) ex
      (m2 * C.mn / (m2 + C.mn)) w tc g1.exc g1.ntotal
    pure (excNormalise raw ++ List.replicate (N - g1.ntotal) 0)
  else do
    let _ ← setup w N el1 emax1
    pure (List.replicate N 0)

end CGMF.Exc

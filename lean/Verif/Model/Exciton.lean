import Verif.Model.Basics
import Mathlib.Algebra.Order.Field.Basic

/-!
# Exciton model: pre-equilibrium neutron spectrum

Model of libcgmf/src/{exciparm,excilambda,excipop,exciton}.cpp and of the normalisation in
excinterface.cpp and evapinterface.cpp.

Arithmetic is exact, over an ordered field.  `exp` and `pow` enter as parameters (`Fns`).  The arrays
`p`, `tau`, `tap`, `tzp`, `tnp`, `tz0`, `tn0` of `MAX_PREEQ` by `MAX_PREEQ` doubles are functions of the two
indices; the statements only mention indices below `MAX_PREEQ`.  Channel 0 (photons) emits nothing in the
code (the loops start at `id=1`), and `MAX_CHANNEL` is 2, so only the neutron channel is modelled.
-/

namespace CGMF.Exc

variable {K : Type} [Field K] [LinearOrder K]

/-- `MAX_PREEQ` (libcgmf/include/exciton.h:18). -/
def maxPreeq : Nat := 6

/-! ## State densities (exciparm.cpp) -/

/-- The functions taken from libm (called at exciparm.cpp:75-76, 136-151, 207-209). -/
structure Fns (K : Type) where
  exp : K → K
  pow : K → K → K

/-- `SPdens` (exciton.h:54): single-particle densities, pairing energy, depth of the well. -/
structure SPdens (K : Type) where
  gz : K
  gn : K
  pairing : K
  wellDepth : K

/-- `Exconf` (exciton.h:23): numbers of proton particles and holes, neutron particles and holes. -/
structure Exconf where
  zp : Int
  zh : Int
  np : Int
  nh : Int
  deriving Repr, DecidableEq

/-- `fact` (exciparm.cpp:23-30): `log(n!)` for `n = 0 … 30`, in units of 1e-6. -/
def factTable : List Nat :=
  [0, 0, 693147, 1791760, 3178050, 4787490, 6579250, 8525160, 10604600, 12801800, 15104400, 17502300,
   19987200, 22552200, 25191200, 27899300, 30671900, 33505100, 36395400, 39339900, 42335600, 45380100,
   48471200, 51606700, 54784700, 58003600, 61261700, 64557500, 67889700, 71257000, 74658200]

/-- `fact[n]` (exciparm.cpp:23-30); outside the 31 entries the read is undefined. -/
def fact (n : Int) : Res K := (readAt factTable n).bind fun v => .ok ((v : K) / 1000000)

/-- `preqPauliCorrection` (exciparm.cpp:91-100). -/
def pauli (gz gn : K) (e : Exconf) : K :=
  if e.zp < 0 ∨ e.zh < 0 ∨ e.np < 0 ∨ e.nh < 0 then 0
  else
    let pm : K := ((max e.zp e.zh : Int) : K)
    let nm : K := ((max e.np e.nh : Int) : K)
    let cp := (pm * pm - ((e.zp * e.zp + e.zh * e.zh + e.zp + e.zh : Int) : K) / 4) / gz
    let cn := (nm * nm - ((e.np * e.np + e.nh * e.nh + e.np + e.nh : Int) : K) / 4) / gn
    cp + cn

/-- `preqPairingCorrection` (exciparm.cpp:66-84); `nc` stands for the critical exciton number computed at
line 73. -/
def pairingCorr (F : Fns K) (nc : K) (n : Int) (ex : K) (p : SPdens K) : K :=
  if p.pairing = 0 then 0
  else
    let r := ex / p.pairing
    if 716 / 1000 + 244 / 100 * F.pow ((n : K) / nc) (217 / 100) ≤ r then
      let x := 996 / 1000 - 176 / 100 * F.pow ((n : K) / nc) (16 / 10) * F.pow r (-(68 / 100))
      p.pairing * (1 - x * x)
    else p.pairing

/-- One term of the alternating sum of `preqFiniteWell` (exciparm.cpp:149-151 and 162-164). -/
def wellTerm (F : Fns K) (n : Int) (h i : Nat) (ex v : K) : Res K :=
  if ex - (i : K) * v > 0 then
    (fact (K := K) h).bind fun a => (fact (K := K) i).bind fun b => (fact (K := K) (h - i : Int)).bind fun c =>
      .ok ((if i % 2 = 0 then 1 else -1) * F.exp (a - b - c) * F.pow (1 - (i : K) * v / ex) ((n : K) - 1))
  else .ok 0

/-- The loop `for(i=1; i<=h; i++)` of `preqFiniteWell` (exciparm.cpp:148-152, 161-165) over the remaining holes. -/
def wellSum (F : Fns K) (n : Int) (h : Nat) (ex v : K) : List Nat → K → Res K
  | [], x => .ok x
  | i :: is, x => (wellTerm F n h i ex v).bind fun t => wellSum F n h ex v is (x + t)

/-- Loop over the smeared well depths (exciparm.cpp:141-155), for the remaining values of `p`. -/
def wellSmear (F : Fns K) (n : Int) (h : Nat) (ex v w : K) : List Int → K → K → Res (K × K)
  | [], qs, xs => .ok (qs, xs)
  | p :: ps, qs, xs =>
    let v1 := v + (p : K) * w
    if v1 < 0 ∨ 38 < v1 then wellSmear F n h ex v w ps qs xs
    else
      let q := 1 / (1 + F.exp ((v - v1) / w)) / (1 + F.exp ((v1 - v) / w))
      (wellSum F n h ex v1 (List.range' 1 h) 1).bind fun x1 => wellSmear F n h ex v w ps (qs + q) (xs + q * x1)

/-- `preqFiniteWell` (exciparm.cpp:123-170). -/
def finiteWell (F : Fns K) (n : Int) (h : Nat) (ex v0 : K) : Res K :=
  let v := if h > 1 then 38 else v0
  if v < 38 - 1 / 2 then
    let w := v * (38 - v) / (2 * 38)
    if n = 1 ∧ h = 1 then
      if 116 / 100 * 38 < ex then .ok 0
      else if ex < v then .ok 1
      else .ok (1 / (1 + F.exp ((ex - v) / w)))
    else
      (wellSmear F n h ex v w [-4, -3, -2, -1, 0, 1, 2, 3, 4] 0 0).bind fun s =>
        let x := if 0 < s.1 then s.2 / s.1 else 1
        .ok (if x < 0 then 0 else x)
  else if v < ex then wellSum F n h ex v (List.range' 1 h) 1
  else .ok 1

/-- `preqStateDensity` (exciparm.cpp:190-213); `pc n ex` stands for `preqPairingCorrection(n,ex,spd)`. -/
def stateDensity (F : Fns K) (pc : Int → K → K) (spd : SPdens K) (ex : K) (e : Exconf) : Res K :=
  let p := e.zp + e.np
  let h := e.zh + e.nh
  let n := p + h
  if n = 0 then .ok 0
  else if e.zp < 0 ∨ e.zh < 0 ∨ e.np < 0 ∨ e.nh < 0 then .ok 0
  else if ex ≤ 0 then .ok 0
  else
    let ux := ex - pc n ex
    let ap := pauli spd.gz spd.gn e
    if ux < 0 ∨ ux < ap then .ok 0
    else
      (fact (K := K) e.zp).bind fun f1 => (fact (K := K) e.zh).bind fun f2 => (fact (K := K) e.np).bind fun f3 =>
      (fact (K := K) e.nh).bind fun f4 => (fact (K := K) (n - 1)).bind fun f5 =>
      (finiteWell F n h.toNat ux spd.wellDepth).bind fun fw =>
        .ok (F.pow spd.gz ((e.zp + e.zh : Int) : K) * F.pow spd.gn ((e.np + e.nh : Int) : K)
          / F.exp (f1 + f2 + f3 + f4 + f5) * F.pow (ux - ap) ((n : K) - 1) * fw)

/-- `preqMSquare` (exciparm.cpp:106-116): the squared matrix element between like nucleons (`m2zz`, `m2nn`) and
between unlike ones (`m2zn`, `m2nz`); `a` is the mass number and `n` the number of excitons. -/
def mSquare (a n exTotal : K) : K × K :=
  let msq := (68 / 10 + 420000 / (exTotal / n + 107 / 10) ^ 3) / a ^ 3
  (msq, 3 / 2 * msq)

/-! ## Transition rates (excilambda.cpp) -/

/-- What the rates need of `Preeq` (exciton.h:73): the total excitation energy, the state density of the composite system and the
Pauli energy of a configuration, and the squared matrix elements times `2π` (`PI2*q->m2..`). -/
structure Preeq (K : Type) where
  exTotal : K
  omega : K → Exconf → K
  pauliE : Exconf → K
  omegaTotal : K
  czz : K
  cnn : K
  czn : K
  cnz : K

/-- `Exconf` shifted by the given numbers (excilambda.cpp:39-58, 274-276). -/
def Exconf.add (e : Exconf) (zp zh np nh : Int) : Exconf := ⟨e.zp + zp, e.zh + zh, e.np + np, e.nh + nh⟩

/-- `densinteg` (excilambda.cpp:259-265). -/
def densInteg (q : Preeq K) (x : K) (ew ep er : Exconf) : K :=
  q.omega x ew * q.omega x ep * q.omega (q.exTotal - x) er

/-- One Simpson integral as the code forms it (excilambda.cpp:67-80, 125-138, 203-214, 239-250): the end
points enter without the matrix element `c`. -/
def simpson (c e1 e2 : K) (f : K → K) : K :=
  let de := (e2 - e1) / 100
  let f0 := de / 3
  let f1 := 2 * f0
  let f2 := 4 * f0
  (f e1 + f e2) * f0
    + ((List.range' 1 99).map fun i : Nat => (if i % 2 = 0 then f1 else f2) * c * f (e1 + (i : K) * de)).sum

/-- `preqLambdaPlusZ` for more than one exciton (excilambda.cpp:36-83). -/
def lambdaPlusZ (q : Preeq K) (e : Exconf) : K :=
  let top := q.pauliE (e.add 1 1 0 0)
  let one (r xp xw : Exconf) (c : K) : K :=
    simpson c (top - q.pauliE r) (q.exTotal - q.pauliE r) fun x => densInteg q x xw xp r
  (one (e.add (-1) 0 0 0) ⟨1, 0, 0, 0⟩ ⟨2, 1, 0, 0⟩ q.czz + one (e.add 0 (-1) 0 0) ⟨0, 1, 0, 0⟩ ⟨1, 2, 0, 0⟩ q.czz
    + one (e.add 0 0 (-1) 0) ⟨0, 0, 1, 0⟩ ⟨1, 1, 1, 0⟩ q.cnz + one (e.add 0 0 0 (-1)) ⟨0, 0, 0, 1⟩ ⟨1, 1, 0, 1⟩ q.cnz)
    / q.omegaTotal

/-- `preqLambdaPlusN` for more than one exciton (excilambda.cpp:94-141). -/
def lambdaPlusN (q : Preeq K) (e : Exconf) : K :=
  let top := q.pauliE (e.add 0 0 1 1)
  let one (r xp xw : Exconf) (c : K) : K :=
    simpson c (top - q.pauliE r) (q.exTotal - q.pauliE r) fun x => densInteg q x xw xp r
  (one (e.add 0 0 (-1) 0) ⟨0, 0, 1, 0⟩ ⟨0, 0, 2, 1⟩ q.cnn + one (e.add 0 0 0 (-1)) ⟨0, 0, 0, 1⟩ ⟨0, 0, 1, 2⟩ q.cnn
    + one (e.add (-1) 0 0 0) ⟨1, 0, 0, 0⟩ ⟨1, 0, 1, 1⟩ q.czn + one (e.add 0 (-1) 0 0) ⟨0, 1, 0, 0⟩ ⟨0, 1, 1, 1⟩ q.czn)
    / q.omegaTotal

/-- `preqLpz0` and `preqLpn0` (excilambda.cpp:148-181), the case of one exciton: `own`, `other` are the
numbers of excitons of the created and of the other kind, `g`, `g'` their densities, `m`, `m'` the matrix
elements, `top` the Pauli energy of the final state and `well` the value of `preqFiniteWell(3,1,..)`. -/
def lambdaPlusOne (pi2 exTotal top own other g g' m m' well : K) : K :=
  let e2 := exTotal - top
  if 0 < e2 then pi2 / 4 * (g * g) * (e2 * e2) * (own * g * m + 2 * other * g' * m') * well else 0

/-- `preqLambdaZeroZ` (excilambda.cpp:187-217). -/
def lambdaZeroZ (q : Preeq K) (e : Exconf) : K :=
  let r := e.add (-1) (-1) 0 0
  let ep := q.pauliE r
  simpson q.czn (q.pauliE (e.add 0 0 0 0) - ep) (q.exTotal - ep)
    (fun x => densInteg q x ⟨0, 0, 1, 1⟩ ⟨1, 1, 0, 0⟩ r) / q.omegaTotal

/-- `preqLambdaZeroN` (excilambda.cpp:223-253). -/
def lambdaZeroN (q : Preeq K) (e : Exconf) : K :=
  let r := e.add 0 0 (-1) (-1)
  let ep := q.pauliE r
  simpson q.cnz (q.pauliE (e.add 0 0 0 0) - ep) (q.exTotal - ep)
    (fun x => densInteg q x ⟨1, 1, 0, 0⟩ ⟨0, 0, 1, 1⟩ r) / q.omegaTotal

/-- The two lifetimes of `preqLifeTime` (exciton.cpp:243-246). -/
def lifetimes (z1 z2 z3 z4 w : K) : K × K :=
  let d1 := z1 + z2 + z3 + z4 + w
  let d2 := z1 + z2 + w
  (if 0 < d1 then 1 / d1 else 0, if 0 < d2 then 1 / d2 else 0)

/-! ## Occupation probabilities (excipop.cpp) -/

/-- The rates and lifetimes handed to `preqPOccupation` (excipop.cpp:25-26): `t1`, `t2` are `tau`, `tap`. -/
structure Rates (K : Type) where
  t1 : Nat → Nat → K
  t2 : Nat → Nat → K
  tzp : Nat → Nat → K
  tnp : Nat → Nat → K
  tz0 : Nat → Nat → K
  tn0 : Nat → Nat → K

/-- The configuration of row `i`, column `j` for an incident neutron (exciton.cpp:110-124): `i` proton pairs,
`j` neutron pairs and the neutron itself. -/
def confAt (i j : Nat) : Exconf := ⟨i, i, 1 + j, j⟩

/-- `preqLambdaPlusZ` and `preqLambdaPlusN` (excilambda.cpp:34, 92): the case of a single exciton apart. -/
def plusZ (q : Preeq K) (one : K) (e : Exconf) : K :=
  if e.zp + e.zh + e.np + e.nh = 1 then one else lambdaPlusZ q e
/-- See `plusZ` (excilambda.cpp:92). -/
def plusN (q : Preeq K) (one : K) (e : Exconf) : K :=
  if e.zp + e.zh + e.np + e.nh = 1 then one else lambdaPlusN q e

/-- The tables after the first double loop of `preqExcitonModel` (exciton.cpp:119-141): the entries stay zero
where the state density of the configuration vanishes.  `q i j` is the content of `prq` at that pass, `lz`, `ln` the
rates of the single-exciton case and `wk` the emission rates. -/
def ratesOf (q : Nat → Nat → Preeq K) (lz ln : K) (wk : Nat → Nat → K) : Rates K :=
  let open_ (i j : Nat) (v : K) : K := if (q i j).omegaTotal = 0 then 0 else v
  let z1 (i j : Nat) := plusZ (q i j) lz (confAt i j)
  let z2 (i j : Nat) := plusN (q i j) ln (confAt i j)
  let z3 (i j : Nat) := lambdaZeroZ (q i j) (confAt i j)
  let z4 (i j : Nat) := lambdaZeroN (q i j) (confAt i j)
  let life (i j : Nat) := lifetimes (z1 i j) (z2 i j) (z3 i j) (z4 i j) (wk i j)
  { t1 := fun i j => open_ i j (life i j).1
    t2 := fun i j => open_ i j (life i j).2
    tzp := fun i j => open_ i j (z1 i j)
    tnp := fun i j => open_ i j (z2 i j)
    tz0 := fun i j => open_ i j (z3 i j)
    tn0 := fun i j => open_ i j (z4 i j) }

/-- Assignment `p[i][j] = v` (excipop.cpp:41, 62). -/
def put (p : Nat → Nat → K) (i j : Nat) (v : K) : Nat → Nat → K :=
  fun a b => if a = i ∧ b = j then v else p a b

/-- The new value `t` of `p[i][j]` (excipop.cpp:43-60). -/
def inflow (r : Rates K) (p : Nat → Nat → K) (i j : Nat) : K :=
  let x1 := if 0 < i then p (i - 1) j * r.tzp (i - 1) j * r.t1 (i - 1) j else 0
  let x5 := if 0 < i then p (i - 1) j * r.tnp (i - 1) j * r.t2 (i - 1) j else 0
  let y1 := if 0 < i ∧ j < maxPreeq - 1 then r.tn0 (i - 1) (j + 1) * r.t1 (i - 1) (j + 1) else 0
  let x2 := if 0 < j then p i (j - 1) * r.tnp i (j - 1) * r.t1 i (j - 1) else 0
  let x6 := if 0 < j then p i (j - 1) * r.tzp i (j - 1) * r.t2 i (j - 1) else 0
  let y2 := if 0 < j ∧ i < maxPreeq - 1 then r.tz0 (i + 1) (j - 1) * r.t1 (i + 1) (j - 1) else 0
  let x3 := if 1 < i ∧ j < maxPreeq - 1 then p (i - 2) (j + 1) * r.tzp (i - 2) (j + 1) * r.t2 (i - 2) (j + 1) else 0
  let x4 := if 1 < j ∧ i < maxPreeq - 1 then p (i + 1) (j - 2) * r.tnp (i + 1) (j - 2) * r.t2 (i + 1) (j - 2) else 0
  x1 + x2 + y1 * (x3 + x5) + y2 * (x4 + x6)

/-- `eps` (excipop.cpp:32). -/
def occEps : K := 1 / 1000000

/-- Body of the two inner loops (excipop.cpp:41-62). -/
def occStep (r : Rates K) (s : (Nat → Nat → K) × Bool) (c : Nat × Nat) : (Nat → Nat → K) × Bool :=
  let p0 := put s.1 0 0 1
  let t := inflow r p0 c.1 c.2
  (put p0 c.1 c.2 t, if 0 < t ∧ occEps < |p0 c.1 c.2 / t - 1| then false else s.2)

/-- The order in which the inner loops visit the array (excipop.cpp:38-39). -/
def cells : List (Nat × Nat) :=
  (List.range maxPreeq).flatMap fun i : Nat => (List.range maxPreeq).map fun j : Nat => (i, j)

/-- One pass over the array (excipop.cpp:36-64). -/
def sweep (r : Rates K) (p : Nat → Nat → K) : (Nat → Nat → K) × Bool := cells.foldl (occStep r) (p, true)

/-- The outer loop with `n` passes left (excipop.cpp:35-75); the flag is `conv`. -/
def occLoop (r : Rates K) : Nat → (Nat → Nat → K) × Bool → (Nat → Nat → K) × Bool
  | 0, s => s
  | n + 1, s =>
    let s' := sweep r s.1
    if s'.2 = true then s' else occLoop r n s'

/-- `preqPOccupation` (excipop.cpp:25-77) on the array cleared at exciton.cpp:70; `loop` runs from 1 below
100.  The flag says that "P calc. not converged" is not printed. -/
def occupation (r : Rates K) : (Nat → Nat → K) × Bool := occLoop r 99 (fun _ _ => 0, true)

/-! ## Spectra -/

/-- One emission rate `wkc[id][k]` (exciton.cpp:217-221). -/
def emission (x ecms sigr omega : K) : K := x * ecms * sigr * omega

/-- `spc[neutron][k]` after the second double loop (exciton.cpp:152-173), before normalisation; `wkc i j k` is the
emission rate of the configuration `(i,j)` into the bin `k`, zero where `omega_total` is zero.  Bin 0
receives nothing: the loop over `k` starts at 1. -/
def excSpectrum (pop tau : Nat → Nat → K) (wkc : Nat → Nat → Nat → K) (k : Nat) : K :=
  if k = 0 then 0 else (cells.map fun c : Nat × Nat => wkc c.1 c.2 k * (tau c.1 c.2 * pop c.1 c.2)).sum

/-- Normalisation in `excitonInterface` (excinterface.cpp:119-123) over the `ntotal` bins of the residual
nucleus. -/
def excNormalise (sp : List K) : List K :=
  let s := sp.sum
  if 0 < s then sp.map (· / s) else sp

/-- One unnormalised value of the evaporation spectrum (evapinterface.cpp:37-41). -/
def evapValue (ecms sigr rho : K) : K := if 0 < ecms then sigr * ecms * rho else 0

/-- `evapInterface` (evapinterface.cpp:28-49) from the energies, reaction cross sections and level densities
of the bins `k0 …`; the quotient by a vanishing sum is undefined. -/
def evapSpectrum (bins : List (K × K × K)) : Res (List K) :=
  let sp := bins.map fun b => evapValue b.1 b.2.1 b.2.2
  if sp.sum = 0 then (if sp = [] then .ok [] else .ub) else .ok (sp.map (· / sp.sum))

end CGMF.Exc

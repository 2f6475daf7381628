import Verif.Model.Basics
import Mathlib.Algebra.Order.Field.Basic
import Mathlib.Algebra.Order.Floor.Ring

/-!
# Optical model: neutron transmission coefficients

Model of libcgmf/src/{etc,extwave,intwave,smatrix,omsetform,omsetparm,omcalc}.cpp: the wave function outside
and inside the potential, the S matrix from matching the two, the transmission coefficients, and the
mesh and the radial shapes of the potential.

Arithmetic is exact, over an ordered field.  A division by zero (which yields a non-finite `double`) is
`ub` here, unless the code only compares the quotient.  Functions the code takes from libm (`cos`, `sin`,
`exp`, `sqrt`, `pow`) enter as parameters: the values of `cos ρ` and `sin ρ`, a table `rt j` standing for
`sqrt(j*j+eta*eta)`, an exponential `ex`, and the starting amplitude `δ^(l+1)`.  Not modelled: the
asymptotic Coulomb functions (asympt.cpp), which neutron emission never calls, the closed-channel branch
of extwave.cpp, and the elastic cross section, which nothing reads.
-/

namespace CGMF.Opt

/-- `Complex` (libcgmf/include/maths.h:20): a pair of doubles. -/
structure Cx (K : Type) where
  re : K
  im : K
  deriving Repr, DecidableEq

variable {K : Type} [Field K] [LinearOrder K]

/-- `absolute` (etc.cpp:24-27): the square of the modulus. -/
def absolute (x : Cx K) : K := x.re * x.re + x.im * x.im

/-- `rational` (etc.cpp:60-69): the complex quotient, by hand. -/
def rational (a1 a2 b1 b2 : K) : Res (Cx K) :=
  let d := b1 * b1 + b2 * b2
  if d = 0 then .ub else .ok ⟨(a1 * b1 + a2 * b2) / d, (a2 * b1 - a1 * b2) / d⟩

/-! ## Outside the potential (extwave.cpp) -/

/-- `omGfunction` (extwave.cpp:106-112); `rt j` is `sqrt(j*j+eta*eta)`. -/
def gFun (rt : Nat → K) (eta rho : K) (l : Nat) (g1 g2 : K) : K :=
  let j : K := (l : K)
  let j1 : K := ((l + 1 : Nat) : K)
  ((j + j1) * (eta + j * j1 / rho) * g2 - j1 * rt l * g1) / (j * rt (l + 1))

/-- `omFfunction` (extwave.cpp:117-123). -/
def fFun (rt : Nat → K) (eta rho : K) (l : Nat) (g1 g2 : K) : K :=
  let j : K := (l : K)
  let j1 : K := ((l + 1 : Nat) : K)
  ((j + j1) * (eta + j * j1 / rho) * g2 - j * rt (l + 1) * g1) / (j1 * rt l)

/-- `omDfunction` (extwave.cpp:128-132). -/
def dFun (rt : Nat → K) (eta rho : K) (l : Nat) (g1 g2 : K) : K :=
  let j1 : K := ((l + 1 : Nat) : K)
  ((eta + j1 * j1 / rho) * g1 - rt (l + 1) * g2) / j1

/-- `MAX_L`, `MAX_L0` and `MAX_POINTS` (optical.h:21,22,25). -/
def maxL : Nat := 50
def maxL0 : Nat := 100
def maxPoints : Nat := 300

/-- The upward loop for `G` (extwave.cpp:57-61): `n` iterations are left, `acc` holds `external[0..l].real`.
Returns the value of `l` after the loop.  The quotient `a/(p3*p3)` of a vanishing `p3` is infinite and so not
below the criterion. -/
def gLoop (rt : Nat → K) (eta rho crit a : K) (lmin : Nat) : Nat → Nat → K → K → List K → Nat × List K
  | 0, l, _, _, acc => (l, acc)
  | n + 1, l, p1, p2, acc =>
    let p3 := gFun rt eta rho l p1 p2
    if p3 ≠ 0 ∧ a / (p3 * p3) < crit ∧ lmin ≤ l then (l, acc ++ [p3])
    else gLoop rt eta rho crit a lmin n (l + 1) p2 p3 (acc ++ [p3])

/-- The downward loop for `F` (extwave.cpp:72-77): from `l` to 1, keeping the entries up to `lmax+1`. -/
def fLoop (rt : Nat → K) (eta rho : K) (lmax : Nat) : Nat → K → K → List K → List K
  | 0, _, _, acc => acc
  | l + 1, p1, p2, acc =>
    let p3 := fFun rt eta rho (l + 1) p1 p2
    fLoop rt eta rho lmax l p2 p3 (if l + 1 ≤ lmax + 2 then p3 :: acc else acc)

/-- `external` and `extderiv` of `Wavefunc` (optical.h:96-101): real part `G`, imaginary part `F`. -/
structure Ext (K : Type) where
  lmax : Nat
  G : List K
  F : List K
  dG : List K
  dF : List K
  deriving Repr, DecidableEq

/-- Derivatives of one column (extwave.cpp:82-88): `n` orders are left, `l` is the next one.  The code
computes them in the loop that also tests the Wronskian; a failed test discards them all. -/
def derivs (rt : Nat → K) (eta rho : K) (xs : List K) : Nat → Nat → List K → Res (List K)
  | 0, _, acc => .ok acc
  | n + 1, l, acc => do
    let x ← readAt xs (l : Int)
    let y ← readAt xs ((l + 1 : Nat) : Int)
    derivs rt eta rho xs n (l + 1) (acc ++ [dFun rt eta rho l x y])

/-- The Wronskian test over `l = 0..lmax` (extwave.cpp:89-95): true when some `l` fails. -/
def wronskFails (tol : K) (e : Ext K) : Bool :=
  (List.range (e.lmax + 1)).any fun l : Nat =>
    match e.G[l]?, e.F[l]?, e.dG[l]?, e.dF[l]? with
    | some g, some f, some dg, some df => decide (tol < |df * g - dg * f - 1|)
    | _, _, _, _ => true

/-- One pass of the `do` loop (extwave.cpp:71-96) from the starting order `l0`. -/
def onePass (rt : Nat → K) (eta rho start : K) (lmax l0 : Nat) (G : List K) : Res (Ext K) := do
  let F := fLoop rt eta rho lmax l0 0 start []
  let f0 ← readAt F 0
  let f1 ← readAt F 1
  let g0 ← readAt G 0
  let g1 ← readAt G 1
  let d := (f0 * g1 - g0 * f1) * rt 1
  let a ← (if d = 0 then .ub else .ok (1 / d) : Res K)
  let F' := F.map (· * a)
  let dF ← derivs rt eta rho F' (lmax + 1) 0 []
  let dG ← derivs rt eta rho G (lmax + 1) 0 []
  .ok ⟨lmax, G, F', dG, dF⟩

/-- The `do … while(flag)` loop (extwave.cpp:70-98): a failed Wronskian restarts ten orders higher, and an
order above `MAX_L0` ends the process. -/
def search (rt : Nat → K) (eta rho start tol : K) (lmax : Nat) (G : List K) (l0 : Nat) : Res (Ext K) :=
  (onePass rt eta rho start lmax l0 G).bind fun e =>
    if wronskFails tol e then
      if maxL0 < l0 + 10 then .exit else search rt eta rho start tol lmax G (l0 + 10)
    else if maxL0 < l0 then .exit else .ok e
  termination_by maxL0 - l0
  decreasing_by simp [maxL0] at *; omega

/-- `omExternalFunction` (extwave.cpp:33-101).  `g0 = external[0].real` and `g1 = external[1].real` come from
`cos`/`sin` (lines 40-41) or from the Coulomb asymptotics (44-52) and are inputs here; `a` is the reference
value of line 55 and `lmin` the argument `lmax`. -/
def external (rt : Nat → K) (eta rho crit start tol a g0 g1 : K) (lmin : Nat) : Res (Ext K) :=
  if rho = 0 then .ub
  else
    let r := gLoop rt eta rho crit a lmin (maxL - 2) 1 g0 g1 [g0, g1]
    let lmax := if r.1 = maxL - 1 then r.1 - 1 else r.1
    search rt eta rho start tol lmax r.2 (lmax + 10)

/-- The case `coulomb == 0` of `omExternalFunction` (extwave.cpp:39-42, 55), the only one for neutrons:
`sqrt(j*j+0)` is `j`; `c` and `s` are `cos(rho)` and `sin(rho)`. -/
def externalNeutral (rho crit start tol c s : K) (lmin : Nat) : Res (Ext K) :=
  external (fun j : Nat => (j : K)) 0 rho crit start tol 1 c (c / rho + s) lmin

/-! ## Inside the potential (intwave.cpp) -/

/-- `Potential` (optical.h:74-83): squared radii, central potential and spin-orbit potential on the mesh. -/
structure Pot (K : Type) where
  radi : List K
  mean : List (Cx K)
  so : List (Cx K)
  deriving Repr, DecidableEq

/-- The coefficient `q` of the radial equation at mesh point `i` (intwave.cpp:47-49, 52-54). -/
def qAt (pot : Pot K) (wavesq xlt sot : K) (i : Int) : Res (Cx K) := do
  let r ← readAt pot.radi i
  let m ← readAt pot.mean i
  let s ← readAt pot.so i
  if r = 0 then .ub
  else .ok ⟨xlt / r - wavesq - m.re - sot * s.re, -m.im - sot * s.im⟩

/-- One step of the Fox-Goodwin method (intwave.cpp:56-69): the next value of the wave function. -/
def fgStep (d2 : K) (q1 q2 q3 p1 p2 : Cx K) : Res (Cx K) := do
  let a1r := 1 - d2 * q1.re
  let a1i := -(d2 * q1.im)
  let a2r := 2 + 10 * d2 * q2.re
  let a2i := 10 * d2 * q2.im
  let p3r := a2r * p2.re - a2i * p2.im - a1r * p1.re + a1i * p1.im
  let p3i := a2r * p2.im + a2i * p2.re - a1r * p1.im - a1i * p1.re
  let a3 ← rational 1 0 (1 - d2 * q3.re) (-(d2 * q3.im))
  .ok ⟨a3.re * p3r - a3.im * p3i, a3.re * p3i + a3.im * p3r⟩

/-- The loop over mesh points (intwave.cpp:51-73): `n` points are left, `i` is the next one, `acc` holds
`internal[0..i-1]`.  The potential arrays and `internal` have the same size (omcalc.cpp:52-58), so the read
of the potential at `i` is undefined exactly when the write of `internal[i]` is. -/
def fgLoop (pot : Pot K) (wavesq d2 xlt sot : K) :
    Nat → Nat → Cx K → Cx K → Cx K → Cx K → List (Cx K) → Res (List (Cx K))
  | 0, _, _, _, _, _, acc => .ok acc
  | n + 1, i, q1, q2, p1, p2, acc => do
    let q3 ← qAt pot wavesq xlt sot (i : Int)
    let p3 ← fgStep d2 q1 q2 q3 p1 p2
    fgLoop pot wavesq d2 xlt sot n (i + 1) q2 q3 p2 p3 (acc ++ [p3])

/-- `omInternalFunction` (intwave.cpp:27-74).  `amp` is `pow(delta,xl+1)` (line 43) and `eps` the relative
imaginary part `-1.0e-10` of the starting value (line 44). -/
def internal (integ : Nat) (delta wavesq xl xs xj amp eps : K) (pot : Pot K) : Res (List (Cx K)) := do
  let d2 := delta * delta / 12
  let xlt := xl * (xl + 1)
  let sot := xj * (xj + 1) - xlt - xs * (xs + 1)
  let p1 : Cx K := ⟨0, 0⟩
  let p2 : Cx K := ⟨amp, amp * eps⟩
  let q2 ← qAt pot wavesq xlt sot 1
  fgLoop pot wavesq d2 xlt sot (integ - 1) 2 ⟨0, 0⟩ q2 p1 p2 [p1, p2]

/-! ## Matching (smatrix.cpp) -/

/-- `lagrange` (smatrix.cpp:21-24): seven-point first derivative. -/
def lagrange (h a b c e f g : K) : K := ((g - a) / 60 + 15 / 100 * (b - f) + 75 / 100 * (e - c)) / h

/-- `omSmatrix` (smatrix.cpp:30-56): `d1` is the logarithmic derivative of the outgoing wave times the
matching radius, `d2` the ratio of incoming to outgoing wave. -/
def smatrix (m : Int) (mesh rm : K) (d1 d2 : Cx K) (w : List (Cx K)) : Res (Cx K) := do
  let win ← readAt w (m - 3)
  let a ← readAt w (m - 6)
  let b ← readAt w (m - 5)
  let c ← readAt w (m - 4)
  let e ← readAt w (m - 2)
  let f ← readAt w (m - 1)
  let g ← readAt w m
  if mesh = 0 then .ub
  else do
    let dr := lagrange mesh a.re b.re c.re e.re f.re g.re
    let di := lagrange mesh a.im b.im c.im e.im f.im g.im
    let q ← rational dr di win.re win.im
    let fr := q.re * rm - d1.re
    let fi := q.im * rm
    let u ← rational fr (fi + d1.im) fr (fi - d1.im)
    .ok ⟨u.re * d2.re - u.im * d2.im, u.re * d2.im + u.im * d2.re⟩

/-! ## Transmission coefficients (omcalc.cpp) -/

/-- The matching constants of one partial wave (omcalc.cpp:95-101). -/
def matching (e : Ext K) (rho : K) (l : Nat) : Res (Cx K × Cx K) := do
  let g ← readAt e.G (l : Int)
  let f ← readAt e.F (l : Int)
  let dg ← readAt e.dG (l : Int)
  let df ← readAt e.dF (l : Int)
  let a ← rational dg df g f
  let b ← rational g (-f) g f
  .ok (⟨a.re * rho, a.im * rho⟩, b)

/-- Line 110 of omcalc.cpp: one minus the square of the S matrix element, not below zero. -/
def clampT (s : Cx K) : K := if 1 - absolute s < 0 then 0 else 1 - absolute s

/-- Everything `omCalc` (omcalc.cpp:27-167) needs besides the partial wave: the mesh, the wave number, the
matching radius and its product with the wave number, the potential, the spin, and the starting amplitude
per `l`. -/
structure Setup (K : Type) where
  n : Nat
  width : K
  wavesq : K
  radMatch : K
  rhoMatch : K
  spin : K
  eps : K
  amp : Nat → K
  pot : Pot K

/-- One transmission coefficient (omcalc.cpp:104-110), given the outer wave function; `xj < |l-s|` is
skipped and leaves the 0 written at line 66. -/
def tranOf (su : Setup K) (e : Ext K) (l j : Nat) : Res K := do
  let ab ← matching e su.rhoMatch l
  let xj := (l : K) + su.spin - (j : K)
  if xj < |(l : K) - su.spin| then .ok 0
  else do
    let w ← internal su.n su.width su.wavesq (l : K) su.spin xj (su.amp l) su.eps su.pot
    let s ← smatrix (su.n : Int) su.width su.radMatch ab.1 ab.2 w
    .ok (clampT s)

/-- The loop over partial waves for a neutron (omcalc.cpp:94-141): `n` values of `l` are left; the table
holds `(T₊, T₋)` per `l`; `cx` is `crx->reaction`.  Returns the `l` at which the loop was left, the table and
the sum. -/
def partialWaves (su : Setup K) (e : Ext K) (cut : K) : Nat → Nat → K → List (K × K) →
    Res (Nat × List (K × K) × K)
  | 0, l, cx, acc => .ok (l, acc, cx)
  | n + 1, l, cx, acc => do
    let tp ← tranOf su e l 0
    let tm ← tranOf su e l 1
    let c1 := ((l : K) + 1) * tp + (l : K) * tm
    if cx ≠ 0 ∧ c1 / cx < cut then .ok (l, acc ++ [(tp, tm)], cx + c1)
    else partialWaves su e cut n (l + 1) (cx + c1) (acc ++ [(tp, tm)])

/-- What `omCalc` hands back: its return value, `tran` as `(T₊, T₋)` per `l` (entries beyond the list are
zero, omcalc.cpp:66) and `crx->reaction`.  `none` is the return value −1 of line 45. -/
structure OmOut (K : Type) where
  lmax : Nat
  tran : List (K × K)
  reaction : K
  deriving Repr, DecidableEq

/-- `omCalc` (omcalc.cpp:27-167) for a neutron (`jmax = 2`), given the outer wave function computed at line
87.  Lines 142-146 set the returned `lmax`; the multiplication of `crx->reaction` by `NORM_FACT*PI/wavesq`
(line 153) is commented out in the code. -/
def omCalc (su : Setup K) (e : Ext K) (cut energy : K) : Res (Option (OmOut K)) :=
  if energy ≤ 0 then .ok none
  else do
    let r ← partialWaves su e cut (e.lmax + 1) 0 0 []
    let lm := if r.1 = maxL - 1 then r.1 else if r.1 < e.lmax then r.1 else e.lmax
    .ok (some ⟨lm, r.2.1, r.2.2⟩)

/-! ## Mesh and radial shapes (omsetform.cpp, omsetparm.cpp) -/

/-- The number of mesh points (omsetform.cpp:55-61): returns `n_match` and the matching radius. -/
def meshPoints [FloorRing K] (rad width : K) : Res (Int × K) :=
  if width = 0 then .ub
  else
    let n : Int := ⌊rad / width⌋ + 1
    let n : Int := if width * (n : K) < rad then n + 1 else n
    if (maxPoints : Int) < n + 3 then .exit else .ok (n + 3, width * (n : K))

/-- The loop `for(i=0; i<=n; i++)` that fills one potential array (omsetform.cpp:82-98): `k` points are
left. -/
def fillArr {α : Type} (f : Nat → α) : Nat → Nat → List α → Res (List α)
  | 0, _, xs => .ok xs
  | k + 1, i, xs => do
    let ys ← writeAt xs (i : Int) (f i)
    fillArr f k (i + 1) ys

/-- `omPotentialForm` followed by `omPotentialFixedLength` (omsetform.cpp:52-66, 82-98) on one of the arrays
of `MAX_POINTS` entries allocated in omcalc.cpp:52-55. -/
def meshFill [FloorRing K] {α : Type} (rad width : K) (f : Nat → α) (blank : α) : Res (Int × K × List α) := do
  let nr ← meshPoints rad width
  let xs ← fillArr f (nr.1.toNat + 1) 0 (List.replicate maxPoints blank)
  .ok (nr.1, nr.2, xs)

/-- `omWoodsSaxon` (omsetform.cpp:154-157); `ex` is `exp`. -/
def woodsSaxon (ex : K → K) (x r a : K) : K := 1 / (1 + ex ((x - r) / a))

/-- `omDerivWoodsSaxon` (omsetform.cpp:159-163). -/
def derivWS (ex : K → K) (x r a : K) : K :=
  let y := ex ((x - r) / a)
  4 * y / ((1 + y) * (1 + y))

/-- `omGaussian` (omsetform.cpp:165-169). -/
def gaussian (ex : K → K) (x r a : K) : K := ex (-((x - r) * (x - r) / (a * a)))

/-- Depths and geometry after `omSetOmp` (optical.h `Optical`, the fields read by omPotentialRadialMean). -/
structure Omp (K : Type) where
  vr : K
  vi : K
  sr : K
  si : K
  r0 : K
  a0 : K
  r0s : K
  a0s : K
  rv : K
  av : K
  rs : K
  as : K

/-- `omPotentialRadialMean` (omsetform.cpp:112-141): `re`/`im` are the two hexadecimal digits of `potform`. -/
def radialMean (ex : K → K) (re im : Nat) (x : K) (o : Omp K) : Cx K :=
  ⟨match re with
    | 1 => o.vr * woodsSaxon ex x o.r0 o.a0
    | 2 => o.sr * derivWS ex x o.r0s o.a0s
    | 3 => o.vr * woodsSaxon ex x o.r0 o.a0 + o.sr * derivWS ex x o.r0s o.a0s
    | _ => 0,
   match im with
    | 1 => o.vi * woodsSaxon ex x o.rv o.av
    | 2 => o.si * derivWS ex x o.rs o.as
    | 3 => o.vi * woodsSaxon ex x o.rv o.av + o.si * derivWS ex x o.rs o.as
    | 4 => o.si * gaussian ex x o.rs o.as
    | 5 => o.vi * woodsSaxon ex x o.rv o.av + o.si * gaussian ex x o.rs o.as
    | _ => 0⟩

/-- The depth switches of `omSetOmp` (omsetparm.cpp:83-91) on the form number returned by the library: a
real volume depth that is not positive clears the bits `0x60`, an imaginary volume depth the bit `0x01`, an
imaginary surface depth the bits `0x06`; the depth itself becomes zero. -/
def clampOmp (potfm : Nat) (o : Omp K) : Nat × Omp K :=
  let p1 := if o.vr ≤ 0 then potfm &&& 0x9f else potfm
  let o1 := if o.vr ≤ 0 then { o with vr := 0 } else o
  let p2 := if o.vi ≤ 0 then p1 &&& 0xfe else p1
  let o2 := if o.vi ≤ 0 then { o1 with vi := 0 } else o1
  let p3 := if o.si ≤ 0 then p2 &&& 0xf9 else p2
  let o3 := if o.si ≤ 0 then { o2 with si := 0 } else o2
  (p3, o3)

/-- The central potential at radius `x`, from the library's form number and depths (omsetparm.cpp:73-91,
omcalc.cpp:78-81, omsetform.cpp:117-119). -/
def centralField (ex : K → K) (potfm : Nat) (o : Omp K) (x : K) : Cx K :=
  let c := clampOmp potfm o
  let p := c.1 &&& 0xff
  radialMean ex (p >>> 4) (p &&& 0xf) x c.2

end CGMF.Opt

import Verif.Model.Optical
import Mathlib.Analysis.SpecialFunctions.Pow.Real
import Mathlib.Analysis.SpecialFunctions.Log.Basic
import Mathlib.Analysis.SpecialFunctions.Exp
import Mathlib.Algebra.Order.Archimedean.Real.Basic

/-!
# The neutron optical potential of every residual nucleus

Model of `koning_delaroche` (libcgmf/src/builtin.cpp:407-482), the only library potential CGMF uses
(setup.cpp:60, excinterface.cpp:53), of `omSetEnergy`, `omSetOmp` and `omInitOmp` (omsetparm.cpp) and of
`omPotentialForm` with the tables it fills (omsetform.cpp).  Over ℝ, with the real `exp`, `log`, `pow`.  Not
modelled: the other seventeen potentials of builtin.cpp, which enter as a parameter, and the Coulomb field,
which is zero for a neutron (`zzprod == 0`).
-/

namespace CGMF.KD

open CGMF.Opt

/-- The library parameters of class `Optical` (optical.h:45-54): reduced radii, diffusenesses, and the
constant, linear and quadratic coefficients of each depth. -/
structure Par where
  r0 : ℝ := 0
  r0s : ℝ := 0
  rv : ℝ := 0
  rs : ℝ := 0
  rvso : ℝ := 0
  rwso : ℝ := 0
  a0 : ℝ := 0
  a0s : ℝ := 0
  av : ℝ := 0
  as : ℝ := 0
  avso : ℝ := 0
  awso : ℝ := 0
  v1 : ℝ := 0
  v2 : ℝ := 0
  v3 : ℝ := 0
  vs1 : ℝ := 0
  vs2 : ℝ := 0
  vs3 : ℝ := 0
  wv1 : ℝ := 0
  wv2 : ℝ := 0
  wv3 : ℝ := 0
  ws1 : ℝ := 0
  ws2 : ℝ := 0
  ws3 : ℝ := 0
  vso1 : ℝ := 0
  vso2 : ℝ := 0
  vso3 : ℝ := 0
  wso1 : ℝ := 0
  wso2 : ℝ := 0
  wso3 : ℝ := 0
  rc : ℝ := 0

/-- `omInitOmp` (omsetparm.cpp:110-118). -/
noncomputable def initOmp : Par := {}

/-- `pow((double)at, 1.0/3.0)` (builtin.cpp:413, omsetparm.cpp:69). -/
noncomputable def cbrt (n : Nat) : ℝ := (n : ℝ) ^ ((1 : ℝ) / 3)

/-- `koning_delaroche` (builtin.cpp:407-482): target `at`, `zt`, projectile `ai`, `zi`. -/
noncomputable def koningDelaroche (e : ℝ) (at' zt ai zi : Nat) (p : Par) : Nat × Par :=
  if ai ≠ 1 then (0, p)
  else
    let a : ℝ := at'
    let a13 := cbrt at'
    let eps := 1 - 2 * (zt : ℝ) / a
    let r0 := 1.3039 - 0.4054 / a13
    let rvso := 1.1854 - 0.647 / a13
    let a0 := 0.6778 - 0.0001487 * a
    let n := zi = 0
    let ef := if n then -11.2814 + 0.02646 * a else -8.4075 + 0.01378 * a
    let v1 := if n then 59.30 - 21.0 * eps - 0.024 * a else 59.30 + 21.0 * eps - 0.024 * a
    let v2 := if n then 0.007228 - 0.00000148 * a else 0.007067 + 0.00000436 * a
    let v3 := if n then 0.00001994 - 0.00000002 * a else 0.00001747 + 0.000000015 * a
    let w1 := if n then 12.195 + 0.0167 * a else 14.336 + 0.0189 * a
    let d1 := if n then 16.0 - 16.0 * eps else 14.3 + 20.0 * eps
    let vc := if n then 0 else 0.42 * (zt : ℝ) / a13
    let as := if n then 0.5446 - 0.0001656 * a else 0.5413 + 0.0003963 * a
    let w2 := 73.55 + 0.0795 * a
    let d2 := 0.0180 + 0.003802 / (1 + Real.exp ((a - 156) / 8))
    let ex := e - ef
    (0x0013, { p with
      r0 := r0, rs := 1.3424 - 0.01585 * a13, rv := r0, rvso := rvso, rwso := rvso
      rc := if n then 0 else 1.198 + 0.697 * a ^ (-(2 : ℝ) / 3) + 12.994 * a ^ (-(5 : ℝ) / 3)
      a0 := a0, av := a0, avso := 0.59, awso := 0.59, as := as
      v1 := v1 * (1 - ex * (v2 - ex * (v3 - ex * 0.000000007))) + vc, v2 := 0, v3 := 0
      ws1 := d1 * Real.exp (-d2 * ex) * ex * ex / (ex * ex + 132.25), ws2 := 0, ws3 := 0
      wv1 := w1 * ex * ex / (ex * ex + w2 * w2), wv2 := 0, wv3 := 0
      vso1 := (5.922 + 0.0030 * a) * Real.exp (-0.0040 * ex), vso2 := 0
      wso1 := -3.1 * ex * ex / (ex * ex + 25600), wso2 := 0 })

/-- `omp_library` (builtin.cpp:89-119): number 6 is `koning_delaroche`; `other` stands for the other
potentials. -/
noncomputable def ompLibrary (other : Nat → ℝ → Nat → Nat → Nat → Nat → Par → Nat × Par)
    (id zt at' zi ai : Nat) (e : ℝ) (p : Par) : Nat × Par :=
  if id = 6 then koningDelaroche e at' zt ai zi p else other id e at' zt ai zi p

/-- What `omSetOmp` leaves in `Optical` (optical.h:53-57): the central potential and the spin-orbit terms. -/
structure Full where
  c : Omp ℝ
  vso : ℝ
  wso : ℝ
  rvso : ℝ
  avso : ℝ
  rwso : ℝ
  awso : ℝ

/-- `omSetOmp` (omsetparm.cpp:64-104).  The switches of lines 83-91 are `clampOmp`. -/
noncomputable def setOmp (other : Nat → ℝ → Nat → Nat → Nat → Nat → Par → Nat × Par) (potfm0 : Nat) (e : ℝ)
    (z0 a0 z1 a1 : Nat) : Nat × Full :=
  let a3 := cbrt a0
  let lib := ompLibrary other (potfm0 >>> 8) z0 a0 z1 a1 e initOmp
  let p := lib.2
  let o : Omp ℝ :=
    { vr := p.v1 + p.v2 * e + p.v3 * e * e, vi := p.wv1 + p.wv2 * e + p.wv3 * e * e,
      sr := p.vs1 + p.vs2 * e + p.vs3 * e * e, si := p.ws1 + p.ws2 * e + p.ws3 * e * e,
      r0 := p.r0 * a3, a0 := p.a0, r0s := p.r0s * a3, a0s := p.a0s, rv := p.rv * a3, av := p.av,
      rs := p.rs * a3, as := p.as }
  let c := clampOmp lib.1 o
  let vso := p.vso1 + p.vso2 * e + p.vso3 * e * e
  (potfm0 &&& 0xff00 ||| c.1,
    { c := c.2, vso := if vso ≤ 0 then 0 else vso, wso := p.wso1 + p.wso2 * e + p.wso3 * e * e,
      rvso := p.rvso * a3, avso := p.avso, rwso := p.rwso * a3, awso := p.awso })

/-- `CRIT_MATCHING` (optical.h:27). -/
noncomputable def critMatching : ℝ := 0.000001

/-- `CSPO` (physics.h:106). -/
noncomputable def cspo : ℝ := 2.04553

/-- `INTEG_WIDTH` (optical.h:26). -/
noncomputable def integWidth : ℝ := 0.2

/-- The six candidate radii `x[0..5]` (omsetform.cpp:37-50). -/
noncomputable def radii (form : Nat) (f : Full) (e : ℝ) : List ℝ :=
  let eps := Real.log critMatching
  let x3 := if form &&& 0x02 ≠ 0 then f.c.rs + f.c.as * (Real.log (4 * f.c.si / e) - eps) else 0
  [if form &&& 0x10 ≠ 0 then f.c.r0 + f.c.a0 * (Real.log (f.c.vr / e) - eps) else 0,
   if form &&& 0x20 ≠ 0 then f.c.r0s + f.c.a0s * (Real.log (4 * |f.c.sr| / e) - eps) else 0,
   if form &&& 0x01 ≠ 0 then f.c.rv + f.c.av * (Real.log (f.c.vi / e) - eps) else 0,
   if form &&& 0x04 ≠ 0 then f.c.rs + f.c.as * Real.sqrt (Real.log (4 * f.c.si / e) - eps) else x3,
   if f.vso ≠ 0 then f.rvso + f.avso * (Real.log (f.vso * cspo / (f.avso * f.rvso * e)) - eps) else 0,
   if f.wso ≠ 0 then f.rwso + f.awso * (Real.log (|f.wso| * cspo / (f.awso * f.rwso * e)) - eps) else 0]

/-- The largest of them (omsetform.cpp:52-53). -/
noncomputable def radMax (xs : List ℝ) : ℝ :=
  match xs with
  | [] => 0
  | x :: r => r.foldl (fun m y => if m < y then y else m) x

/-- `omThomas` (omsetform.cpp:171-176). -/
noncomputable def thomas (x r a : ℝ) : ℝ :=
  if x = 0 then 0
  else
    let y := Real.exp ((x - r) / a)
    y / (x * a * (1 + y) * (1 + y))

/-- `omPotentialRadialSpo` (omsetform.cpp:144-150). -/
noncomputable def radialSpo (x : ℝ) (f : Full) : Cx ℝ :=
  ⟨if f.vso ≠ 0 then f.vso * thomas x f.rvso f.avso else 0,
   if f.wso ≠ 0 then f.wso * thomas x f.rwso f.awso else 0⟩

/-- The constant `2 AMUNIT/VLIGHTSQ/HBARSQ` (physics.h:82, 87, 89; omsetparm.cpp:32, omsetform.cpp:78), in 1/(MeV fm²). -/
noncomputable def twoMu : ℝ := 2 * 931.4943335 / (8.98755179 * 10 ^ 46) / (4.33243296 / 10 ^ 43)

/-- What the code knows about the mesh and the potential on it (class `Potential`, optical.h:74-84). -/
structure Mesh where
  n : Int
  rad : ℝ
  pot : Pot ℝ

/-- `omPotentialForm` with `omPotentialFixedLength` (omsetform.cpp:35-103) for a neutron (`zzprod == 0`): the
tables have `MAX_POINTS` entries (omcalc.cpp:52-55), `junk` before they are written.  `form` is the masked
index of omcalc.cpp:78-79; `mu` the reduced mass. -/
noncomputable def potentialForm (junk : Pot ℝ) (form : Nat) (f : Full) (e mu width : ℝ) : Res Mesh := do
  let nr ← meshPoints (radMax (radii form f e)) width
  let k := nr.1.toNat + 1
  let c1 := mu * twoMu
  let c2 := c1 * cspo
  let ra ← fillArr (fun i : Nat => ((i : ℝ) * width) * ((i : ℝ) * width)) k 0 junk.radi
  let me ← fillArr (fun i : Nat =>
    let m := radialMean Real.exp ((form &&& 0xff) >>> 4) (form &&& 0xf) ((i : ℝ) * width) f.c
    (⟨m.re * c1, m.im * c1⟩ : Cx ℝ)) k 0 junk.mean
  let so ← fillArr (fun i : Nat =>
    let m := radialSpo ((i : ℝ) * width) f
    (⟨m.re * c2, m.im * c2⟩ : Cx ℝ)) k 0 junk.so
  .ok ⟨nr.1, nr.2, ⟨ra, me, so⟩⟩

/-- The potential `omCalc` uses for a neutron of energy `e` on the nucleus `Z`, `A` (omcalc.cpp:78-81,
setup.cpp:60: `omp = 6 << 8`). -/
noncomputable def neutronMesh (other : Nat → ℝ → Nat → Nat → Nat → Nat → Par → Nat × Par) (junk : Pot ℝ)
    (e mu : ℝ) (Z A : Nat) : Res Mesh :=
  let o := setOmp other (6 <<< 8) e Z A 0 1
  potentialForm junk (o.1 &&& 0x00ff) o.2 e mu integWidth

end CGMF.KD

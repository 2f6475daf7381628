import Mathlib.Analysis.SpecialFunctions.Trigonometric.Inverse
import Verif.Model.Event
import Verif.Model.Cascade

/-!
# Kinematics of fission, neutron and photon emission

libcgmf/src/kinematics.cpp: `neutron_emission_boost` (250-296), `boost` (29-239), `boost_pfn`
(304-398); libcgmf/src/specmc.cpp `recordEmittedParticlesFission` (953-1018).

Arithmetic is over the reals.  A result that is not a number in the code (square root or arc cosine
outside the domain, division by zero) and the read of an uninitialised variable both count as `ub`.
-/

namespace CGMF.Kin

open CGMF

noncomputable section

open scoped Classical in
/-- Continue only when the operation that follows yields a number. -/
def needs (p : Prop) : Rnd ℝ Unit := fun s => if p then .ok ((), s) else .ub

/-- Arrays `double[3]`. -/
abbrev V3 := Fin 3 → ℝ

/-- Constants and tables: `amuMeV` (physics.h), `NEUTRONMASS`, `twopi` (physics.h:19) and the two tables of mass
excesses, both of which stop the process when the nucleus is missing: `mx` is `getMassExcess` (FissionFragments.cpp:4873-4880,
read from masses.dat), `mt` is `mass_excess` (masstable.cpp:39-62, compiled in), used for the photons only. -/
structure Const where
  amu : ℝ
  neutron : ℝ
  twopi : ℝ
  mx : Int → Int → Res ℝ
  mt : Int → Int → Res ℝ

/-- `NEUTRONMASS*amuMeV`, kinematics.cpp:261. -/
def Const.mn (k : Const) : ℝ := k.neutron * k.amu

/-- `A*amuMeV+getMassExcess(1000*Z+A)`. -/
def Const.mass (k : Const) (z a : Int) : Res ℝ := do
  let e ← k.mx z a
  pure (a * k.amu + e)

/-- `A*amuMeV+mass_excess(Z,A)`, kinematics.cpp:195. -/
def Const.massT (k : Const) (z a : Int) : Res ℝ := do
  let e ← k.mt z a
  pure (a * k.amu + e)

/-- Sum of squares, accumulated over the three components. -/
def nsq (v : V3) : ℝ := v 0 * v 0 + v 1 * v 1 + v 2 * v 2

/-- kinematics.cpp:271-278 and 376-383: the last pair of neighbouring table rows whose first row has
a cumulative value not above `r`, scanning upwards until a row exceeds `r`. -/
def cdfScan : List (ℝ × ℝ) → ℝ → Option ((ℝ × ℝ) × (ℝ × ℝ)) → Option ((ℝ × ℝ) × (ℝ × ℝ))
  | a :: b :: t, r, acc => if a.2 ≤ r then cdfScan (b :: t) r (some (a, b)) else acc
  | _, _, acc => acc

/-- kinematics.cpp:266-279 and 374-384: cosine sampled from a tabulated cumulative distribution.
When no row qualifies the first function divides 0 by 0 and the second reads uninitialised
variables. -/
def cdfCos (tab : List (ℝ × ℝ)) : Rnd ℝ ℝ := do
  let r ← Rnd.draw
  let seg ← Rnd.get (cdfScan tab r none)
  needs (seg.2.2 - seg.1.2 ≠ 0)
  pure (((seg.2.1 - seg.1.1) * r - seg.1.2 * seg.2.1 + seg.2.2 * seg.1.1) / (seg.2.2 - seg.1.2))

/-- kinematics.cpp:281 and 371. -/
def isoCos : Rnd ℝ ℝ := do
  let r ← Rnd.draw
  pure (2 * r - 1)

/-- kinematics.cpp:264-284: from the table when one is given. -/
def sampleCos : Option (List (ℝ × ℝ)) → Rnd ℝ ℝ
  | some tab => cdfCos tab
  | none => isoCos

/-- `sqrt`. -/
def sqrtR (x : ℝ) : Rnd ℝ ℝ := do
  needs (0 ≤ x)
  pure (Real.sqrt x)

/-- One emitted neutron: laboratory energy, laboratory velocity, centre-of-mass velocity. -/
structure Emit where
  energy : ℝ
  v : V3
  vcm : V3

/-- kinematics.cpp:250-296 `neutron_emission_boost`: emission from nucleus `(z, a)` with momentum `p`.
The second component is the momentum left in `p_c`. -/
def neutronBoost (k : Const) (z a : Int) (p : V3) (ecm : ℝ) (tab : Option (List (ℝ × ℝ))) :
    Rnd ℝ (Emit × V3) := do
  let m ← Rnd.lift (k.mass z a)
  let r ← Rnd.draw
  let c ← sampleCos tab
  let s ← sqrtR (1 - c * c)
  needs (k.mn ≠ 0)
  let vn ← sqrtR (2 * ecm / k.mn)
  needs (m ≠ 0)
  let vcm : V3 := ![vn * s * Real.cos (k.twopi * r), vn * s * Real.sin (k.twopi * r), vn * c]
  let v : V3 := fun i => vcm i + p i / m
  pure (⟨nsq v * (1 / 2) * k.mn, v, vcm⟩, fun i => p i - k.mn * v i)

/-- kinematics.cpp:180-189: the neutrons of one fragment, the mass number falling by one after each. -/
def boostNeutrons (k : Const) (z : Int) : Int → V3 → List ℝ → Rnd ℝ (List Emit × V3)
  | _, p, [] => pure ([], p)
  | a, p, e :: es => do
    let x ← neutronBoost k z a p e none
    let y ← boostNeutrons k z (a - 1) x.2 es
    pure (x.1 :: y.1, y.2)

/-- One photon: laboratory energy and the vectors stored as laboratory and centre-of-mass
"velocities" (momenta). -/
structure Photon where
  energy : ℝ
  lab : V3
  cm : V3

/-- kinematics.cpp:199-232: one photon of centre-of-mass energy `eg` from a nucleus with momentum
`pf` and mass `mf`. -/
def photonBoost (k : Const) (pf mf eg : ℝ) : Rnd ℝ Photon := do
  let r1 ← Rnd.draw
  let r2 ← Rnd.draw
  let c := 2 * r2 - 1
  needs (-1 ≤ c ∧ c ≤ 1)
  let th := Real.arccos c
  needs (mf ≠ 0)
  let b := pf / mf
  let q ← sqrtR (1 - b * b)
  needs (1 - b * Real.cos th ≠ 0)
  let el := eg * q / (1 - b * Real.cos th)
  pure ⟨el,
    ![el * c, el * Real.sin th * Real.cos (k.twopi * r1), el * Real.sin th * Real.sin (k.twopi * r1)],
    ![eg * c, eg * Real.sin th * Real.cos (k.twopi * r1), eg * Real.sin th * Real.sin (k.twopi * r1)]⟩

/-- kinematics.cpp:194-234: the photon loop. -/
def photons (k : Const) (pf mf : ℝ) : List ℝ → Rnd ℝ (List Photon)
  | [] => pure []
  | e :: es => do
    let g ← photonBoost k pf mf e
    let gs ← photons k pf mf es
    pure (g :: gs)

/-- Result of `boost`: neutrons, photons, remaining fragment momentum. -/
structure Boosted where
  n : List Emit
  g : List Photon
  post : V3

/-- kinematics.cpp:29-239 `boost`.  The fragment angles and rotated momentum of lines 73-90 are never
used and are left out; the mass look-up of line 65 remains since it may stop the process. -/
def boost (k : Const) (z a : Int) (p : V3) (ns gs : List ℝ) : Rnd ℝ Boosted := do
  let _ ← Rnd.lift (k.mass z a)
  let x ← boostNeutrons k z a p ns
  let mf ← Rnd.lift (k.massT z (a - ns.length))
  let g ← photons k (Real.sqrt (nsq x.2)) mf gs
  pure ⟨x.1, g, x.2⟩

/-- kinematics.cpp:339-347: the pre-fission neutrons number `n`, `n+1`, ... (`cnt` of them) with
isotropic emission.  `ecm` is the C array of `MAX_NUMBER_NEUTRONS_PRE` energies. -/
def preLoop (k : Const) (z : Int) (ecm : List ℝ) : Nat → Nat → Int → V3 → Rnd ℝ (List Emit × V3)
  | _, 0, _, p => pure ([], p)
  | n, cnt + 1, a, p => do
    let e ← Rnd.lift (readAt ecm n)
    let x ← neutronBoost k z a p e none
    let y ← preLoop k z ecm (n + 1) cnt (a - 1) x.2
    pure (x.1 :: y.1, y.2)

/-- Arguments of `boost_pfn`: original compound nucleus, incident energy, TKE, the fragments, number
of pre-fission neutrons with their centre-of-mass energies, tables (`aniso = none` when
`anisotropyCoefficient==1.0`, `preeq = some` when `preeq_flag`). -/
structure PfnIn where
  zc : Int
  ac : Int
  en : ℝ
  tke : ℝ
  al : Int
  zl : Int
  ah : Int
  zh : Int
  npre : Nat
  ecm : List ℝ
  aniso : Option (List (ℝ × ℝ))
  preeq : Option (List (ℝ × ℝ))

/-- kinematics.cpp:329-337: the optional pre-equilibrium neutron.  The mass number is not lowered. -/
def preeqFirst (k : Const) (i : PfnIn) (p : V3) : Rnd ℝ (List Emit × V3) :=
  match i.preeq with
  | none => pure ([], p)
  | some tab => do
    let e ← Rnd.lift (readAt i.ecm 0)
    let x ← neutronBoost k i.zc i.ac p e (some tab)
    pure ([x.1], x.2)

/-- Results of `boost_pfn`: pre-fission neutrons in the order of the arrays, fragment momenta. -/
structure PfnOut where
  pre : List Emit
  light : V3
  heavy : V3

/-- kinematics.cpp:348-394: momenta of the two fragments of a nucleus with momentum `p` and mass
`mc`. -/
def split (k : Const) (mc ml mh tke : ℝ) (aniso : Option (List (ℝ × ℝ))) (p : V3) : Rnd ℝ (V3 × V3) := do
  needs (mc ≠ 0 ∧ ml ≠ 0 ∧ mh ≠ 0 ∧ 1 / ml + 1 / mh ≠ 0)
  let tcm := tke - 1 / 2 * (ml + mh) * (nsq p / (mc * mc))
  let pf ← sqrtR (2 * tcm / (1 / ml + 1 / mh))
  let r ← Rnd.draw
  let c ← sampleCos aniso
  let s ← sqrtR (1 - c * c)
  let light : V3 := ![pf * Real.cos (k.twopi * r) * s + ml * p 0 / mc,
    pf * Real.sin (k.twopi * r) * s + ml * p 1 / mc, pf * c + ml * p 2 / mc]
  pure (light, fun j => p j - light j)

/-- kinematics.cpp:304-398 `boost_pfn`. -/
def boostPfn (k : Const) (i : PfnIn) : Rnd ℝ PfnOut := do
  let p0 ← sqrtR (2 * k.mn * i.en)
  let x ← preeqFirst k i ![0, 0, p0]
  let y ← preLoop k i.zc i.ecm x.1.length (i.npre - x.1.length) i.ac x.2
  let mc ← Rnd.lift (k.mass i.zc (i.ac - (i.npre - x.1.length : Nat)))
  let ml ← Rnd.lift (k.mass i.zl i.al)
  let mh ← Rnd.lift (k.mass i.zh i.ah)
  let f ← split k mc ml mh i.tke i.aniso y.2
  pure ⟨x.1 ++ y.1, f.1, f.2⟩

/-- specmc.cpp:973-979 and the like: `v/sqrt(vx*vx+vy*vy+vz*vz)`, not a number for the zero vector. -/
def dircos (v : V3) : Rnd ℝ V3 := do
  needs (nsq v ≠ 0)
  pure (fun i => v i / Real.sqrt (nsq v))

/-- The loops specmc.cpp:971-990 and 993-1014. -/
def dircosAll : List V3 → Rnd ℝ (List V3)
  | [] => pure []
  | v :: vs => do
    let d ← dircos v
    let ds ← dircosAll vs
    pure (d :: ds)

/-- What `recordEmittedParticlesFission` leaves in `fissionEventType`: the arrays, the fragment
momentum after emission and its kinetic energy. -/
structure FragOut where
  rcd : Event.FragRecord ℝ
  post : V3
  kePost : ℝ

/-- The arrays of `fissionEventType` are zero where nothing was written (config-ff.h:61-104). -/
def pad (n : Nat) (xs : List ℝ) : List ℝ := xs ++ List.replicate (n - xs.length) 0

/-- specmc.cpp:953-1018: from the particles of the de-excitation to the fragment record.  `KEpost` is
zero before (config-ff.h:97); the mass is that of the fragment before emission. -/
def fragTail (k : Const) (z a : Int) (pre : V3) (r : MC.Rec ℝ) : Rnd ℝ FragOut := do
  needs (r.n.length ≤ Event.maxNeutrons ∧ r.g.length ≤ Event.maxGammas)
  let b ← boost k z a pre r.n (r.g.map Prod.fst)
  let m ← Rnd.lift (k.mass z a)
  needs (2 * m ≠ 0)
  let dn ← dircosAll (b.n.map Emit.v)
  let dc ← dircosAll (b.n.map Emit.vcm)
  let dg ← dircosAll (b.g.map Photon.lab)
  pure ⟨{ nu := r.n.length
          neutronEnergies := pad Event.maxNeutrons (b.n.map Emit.energy)
          neutronDircosu := pad Event.maxNeutrons (dn.map (· 0))
          neutronDircosv := pad Event.maxNeutrons (dn.map (· 1))
          neutronDircosw := pad Event.maxNeutrons (dn.map (· 2))
          cmNeutronEnergies := pad Event.maxNeutrons (r.n)
          cmNeutronDircosu := pad Event.maxNeutrons (dc.map (· 0))
          cmNeutronDircosv := pad Event.maxNeutrons (dc.map (· 1))
          cmNeutronDircosw := pad Event.maxNeutrons (dc.map (· 2))
          nug := r.g.length
          photonEnergies := pad Event.maxGammas (b.g.map Photon.energy)
          photonDircosu := pad Event.maxGammas (dg.map (· 0))
          photonDircosv := pad Event.maxGammas (dg.map (· 1))
          photonDircosw := pad Event.maxGammas (dg.map (· 2))
          photonAges := pad Event.maxGammas (r.g.map Prod.snd) },
        b.post, (0 + nsq b.post) / (2 * m)⟩

/-- The event seen by the caller: the arrays and the two fragment outcomes. -/
structure Full where
  data : Event.EventData ℝ
  preL : V3
  preH : V3
  postL : V3
  postH : V3
  keL : ℝ
  keH : ℝ

/-- cgmfEvents.cpp:402-512, from the sampled pair on: kinematics of fission, de-excitation of the
light fragment (`decL`), its record, the same for the heavy fragment, assembly.
`npre` is `ff->Ac0 - ff->Ac`. -/
def event (k : Const) (time : ℝ) (i : PfnIn) (decL decH : Rnd ℝ (MC.Rec ℝ)) : Rnd ℝ Full := do
  let o ← boostPfn k i
  let rl ← decL
  let l ← fragTail k i.zl i.al o.light rl
  let rh ← decH
  let h ← fragTail k i.zh i.ah o.heavy rh
  needs (∀ e ∈ o.pre.take i.npre, nsq e.v ≠ 0)
  let d ← Rnd.lift (Event.assemble Real.sqrt k.mn time l.rcd h.rcd i.npre
    (o.pre.map fun e => ⟨e.v 0, e.v 1, e.v 2⟩))
  pure ⟨d, o.light, o.heavy, l.post, h.post, l.kePost, h.kePost⟩

/-- FissionFragments.cpp:1277-1283 and 1403-1409: kinetic energies of the fragments. -/
def keSplit (ml mh tke : ℝ) : ℝ × ℝ := (tke * mh / (ml + mh), tke * ml / (ml + mh))

end

end CGMF.Kin

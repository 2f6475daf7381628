import Verif.Model.FloatPhoton

/-!
# Neutrons and the momenta of the fragments in floating-point arithmetic

kinematics.cpp:250-299 `neutron_emission_boost`, the loops that call it (179-189 in `boost`, 330-347 in `boost_pfn`) and the momenta of
the two fragments (354-393), with every operation rounded (Model/Float).  Over exact numbers they are in Model/Kinematics.  The masses,
sums of a table entry and a product, are parameters: whatever number the code computes.  `sin` and `cos` are those of the library.
-/

namespace CGMF.Fp

open Kin (V3)

variable (fl : ℝ → ℝ)

/-- What is stored for a neutron: velocity in the frame of the nucleus, velocity and energy in the laboratory. -/
structure Neutron where
  cm : V3
  lab : V3
  energy : ℝ

/-- One call of `neutron_emission_boost`: mass of the emitting nucleus, energy in its frame, the table of the pre-equilibrium angular
distribution if it is used, and the two random numbers. -/
structure Call where
  mass : ℝ
  energy : ℝ
  table : Option (List (ℝ × ℝ))
  r1 : ℝ
  r2 : ℝ

/-- kinematics.cpp:264-282: the cosine of the direction. -/
noncomputable def drawnCos (t : Option (List (ℝ × ℝ))) (r : ℝ) : Option ℝ :=
  match t with
  | none => some (isoCos fl r)
  | some t => tableCos fl t r

/-- kinematics.cpp:294-296: the sum of squares, from zero. -/
def sumSquares (v : V3) : ℝ := fl (fl (fl (0 + fl (v 0 * v 0)) + fl (v 1 * v 1)) + fl (v 2 * v 2))

/-- kinematics.cpp:250-299 `neutron_emission_boost`: the neutron and the momentum left. -/
noncomputable def emitNeutron (L : Library) (twopi mn : ℝ) (p : V3) (k : Call) : Option (Neutron × V3) := do
  let phi := fl (twopi * k.r1)
  let c ← drawnCos fl k.table k.r2
  let s ← sinOf fl c
  let q ← fdiv fl (fl (2 * k.energy)) mn
  let v ← fsqrt fl q
  let cm : V3 := ![fl (fl (v * s) * L.cos phi), fl (fl (v * s) * L.sin phi), fl (v * c)]
  let b0 ← fdiv fl (p 0) k.mass
  let b1 ← fdiv fl (p 1) k.mass
  let b2 ← fdiv fl (p 2) k.mass
  let lab : V3 := ![fl (cm 0 + b0), fl (cm 1 + b1), fl (cm 2 + b2)]
  pure (⟨cm, lab, fl (fl (sumSquares fl lab * (1 / 2)) * mn)⟩, fun i => fl (p i - fl (mn * lab i)))

/-- kinematics.cpp:179-189 and 330-347: one neutron after another, from the same running momentum. -/
noncomputable def emitNeutrons (L : Library) (twopi mn : ℝ) : V3 → List Call → Option (List Neutron × V3)
  | p, [] => some ([], p)
  | p, k :: ks => do
    let a ← emitNeutron fl L twopi mn p k
    let b ← emitNeutrons L twopi mn a.2 ks
    pure (a.1 :: b.1, b.2)

/-- kinematics.cpp:359-393: momenta of the light and of the heavy fragment of a nucleus of momentum `p` and mass `mc`. -/
noncomputable def divide (L : Library) (twopi mc ml mh tke : ℝ) (p : V3) (table : Option (List (ℝ × ℝ))) (r1 r2 : ℝ) : Option (V3 × V3) := do
  let v2 ← fdiv fl (sumSquares fl p) (fl (mc * mc))
  let tcm := fl (tke - fl (fl (1 / 2 * fl (ml + mh)) * v2))
  let il ← fdiv fl 1 ml
  let ih ← fdiv fl 1 mh
  let q ← fdiv fl (fl (2 * tcm)) (fl (il + ih))
  let pf ← fsqrt fl q
  let phi := fl (twopi * r1)
  let c ← drawnCos fl table r2
  let s ← sinOf fl c
  let b0 ← fdiv fl (fl (ml * p 0)) mc
  let b1 ← fdiv fl (fl (ml * p 1)) mc
  let b2 ← fdiv fl (fl (ml * p 2)) mc
  let light : V3 := ![fl (fl (fl (pf * L.cos phi) * s) + b0), fl (fl (fl (pf * L.sin phi) * s) + b1), fl (fl (pf * c) + b2)]
  pure (light, fun i => fl (p i - light i))

/-- The momenta of one fission: neutrons before fission from the momentum of the incident neutron (kinematics.cpp:325-347), the two
fragments (354-393), and the neutrons of each (179-189).  Between the calls the code stores the momenta in the fragments and draws
the decays; they enter through the lists of calls. -/
structure Momenta where
  pre : List Neutron
  light : List Neutron
  heavy : List Neutron
  endLight : V3
  endHeavy : V3

/-- kinematics.cpp:325-393 followed by 179-189 for each fragment. -/
noncomputable def fissionMomenta (L : Library) (twopi mn en mc ml mh tke : ℝ) (table : Option (List (ℝ × ℝ))) (r1 r2 : ℝ)
    (pre light heavy : List Call) : Option Momenta := do
  let p0 ← fsqrt fl (fl (fl (2 * mn) * en))
  let a ← emitNeutrons fl L twopi mn ![0, 0, p0] pre
  let f ← divide fl L twopi mc ml mh tke a.2 table r1 r2
  let l ← emitNeutrons fl L twopi mn f.1 light
  let h ← emitNeutrons fl L twopi mn f.2 heavy
  pure ⟨a.1, l.1, h.1, l.2, h.2⟩

end CGMF.Fp

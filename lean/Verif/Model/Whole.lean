import Verif.Model.Kinematics
import Verif.Model.Fragments
import Verif.Spec.Fresh

/-!
# One event from the first random number to the last

libcgmf/src/cgmfEvents.cpp: the constructor of `cgmfEvent`, lines 401-433; libcgmf/src/specmc.cpp: `specMCMainFission` (113-197) with
`recordEmittedParticlesFission` (902-964).  The direction cosines computed from the velocities (965-1018) and the assembly of the arrays
(435-512 of cgmfEvents.cpp) use no random numbers and are left out here; they are in `Model/Kinematics.lean`.
-/

namespace CGMF.Whole

open CGMF.MC CGMF.Kin CGMF.Frag

noncomputable section

/-- Constants of the kinematics, mass and level tables, parameters of the decay of nucleus `(z, a)`, sizes of the arrays. -/
structure Cfg where
  k : Const
  tb : Tables ℝ
  par : Int → Int → Par ℝ
  nn : Nat
  ng : Nat
  ni : Nat

/-- specmc.cpp:113-197 and 902-964: the decay of one fragment with momentum `mom`, the lists of its particles, and their directions. -/
def emit (g : Cfg) (b : Job ℝ) (mom : V3) (stale : Nat → ℝ) (st : St ℝ) : Rnd ℝ (St ℝ × Boosted) := do
  let st ← b.run st stale
  let r ← Rnd.lift (record g.nn g.ng g.ni st)
  let o ← boost g.k b.z b.a mom r.n (r.g.map Prod.fst)
  pure (st, o)

/-- cgmfEvents.cpp:411-417: the light fragment.  The spin becomes an index by truncation (popinit.cpp:196-197), which for spins is the
floor. -/
def lightJob (g : Cfg) (f : Frags ℝ PfnOut) (w : ℝ × ℝ × Int × Int) : Job ℝ :=
  ⟨g.tb, g.par f.p.zl f.p.al, f.p.zl, f.p.al, f.x.ul, ⌊w.1⌋, w.2.2.1⟩

/-- cgmfEvents.cpp:423-429: the heavy fragment. -/
def heavyJob (g : Cfg) (f : Frags ℝ PfnOut) (w : ℝ × ℝ × Int × Int) : Job ℝ :=
  ⟨g.tb, g.par f.p.zh f.p.ah, f.p.zh, f.p.ah, f.x.uh, ⌊w.2.1⌋, w.2.2.2⟩

/-- The fragments, and for both the history and the particles. -/
structure Event where
  f : Frags ℝ PfnOut
  hl : List (Hist ℝ)
  l : Boosted
  hh : List (Hist ℝ)
  h : Boosted

/-- The fragments are sampled again (FissionFragments.cpp:1072): not followed here. -/
def again : Rnd ℝ Event := fun _ => .more

/-- cgmfEvents.cpp:401-433 with one pass of the loop FissionFragments.cpp:1067-1080, for a given fissioning nucleus `c` and its tables: the
fragments are sampled; if both have an excitation energy, the light one decays, then the heavy one.  Otherwise the fragments would be
sampled again, which is left open.  `sl` and `sh` are the energies that earlier decays left in the array of nuclei. -/
def event (g : Cfg) (v : Env ℝ PfnOut) (amu : ℝ) (t : Tab ℝ) (fuel : Nat) (a0 : Int) (c : Pre.Comp ℝ) (sl sh : Nat → ℝ) (st : St ℝ) :
    Rnd ℝ Event := do
  let f ← sample v amu t fuel a0 c
  if f.x.ul ≠ 0 ∧ f.x.uh ≠ 0 then
    match f.x.spins with
    | none => Rnd.undef
    | some w => do
      let l ← emit g (lightJob g f w) f.mom.light sl st
      let h ← emit g (heavyJob g f w) f.mom.heavy sh l.1
      pure ⟨f, l.1.hs, l.2, h.1.hs, h.2⟩
  else again

end

end CGMF.Whole

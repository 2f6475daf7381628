import Verif.Model.Whole

/-!
# One event with fragments sampled again

libcgmf/src/FissionFragments.cpp: the loop of `generateInitialFissionFragmentHistories` (1066-1073), for one event, followed by both decays
(cgmfEvents.cpp:401-433).
-/

namespace CGMF.Whole

open CGMF.MC CGMF.Kin CGMF.Frag

noncomputable section

/-- cgmfEvents.cpp:401-433 and FissionFragments.cpp:1068-1073: in each pass the fissioning nucleus with its tables is set up (FissionFragments.cpp:1070; what
is drawn there is `left`, what follows from it `con`), then the fragments are sampled (1071); if both have an excitation energy (1072) they
decay, otherwise the pass is repeated.  `.more` after `n` passes.  If the yields are not computed again (`recomputeYields` false), `left`
draws nothing. -/
def fission {κ : Type} (g : Cfg) (amu : ℝ) (left : Rnd ℝ κ) (con : κ → Pre.Comp ℝ × Tab ℝ × Env ℝ PfnOut) (fuel : Nat) (a0 : Int)
    (sl sh : Nat → ℝ) (st : St ℝ) : Nat → Rnd ℝ Event
  | 0 => again
  | n + 1 => do
    let k ← left
    let f ← sample (con k).2.2 amu (con k).2.1 fuel a0 (con k).1
    if f.x.ul ≠ 0 ∧ f.x.uh ≠ 0 then
      match f.x.spins with
      | none => Rnd.undef
      | some w => do
        let l ← emit g (lightJob g f w) f.mom.light sl st
        let h ← emit g (heavyJob g f w) f.mom.heavy sh l.1
        pure ⟨f, l.1.hs, l.2, h.1.hs, h.2⟩
    else fission g amu left con fuel a0 sl sh st n

end

end CGMF.Whole

import Verif.Spec.History
import Verif.Spec.Summary

/-! # What the summary table of a run shows, for C136 -/

namespace CGMF.EndToEnd

open CGMF.Spec CGMF.Toolkit CGMF.Text

/-- The cell shows the average of the numbers `xs` up to `tol`; without any number there is `nan`. -/
def Near (tol : ℚ) (xs : List ℚ) (c : List Char) : Prop :=
  (xs = [] → trim c = ['n', 'a', 'n']) ∧ (xs ≠ [] → ∃ v, pyFloat (trim c) = .ok v ∧ |v - xs.sum / xs.length| ≤ tol)

/-- A row with label, tolerance and the numbers averaged in every cell. -/
def RowNear (e : String × ℚ × List (List ℚ)) (r : String × List (List Char)) : Prop :=
  r.1 = e.1 ∧ List.Forall₂ (Near e.2.1) e.2.2 r.2

/-- The table to be expected from the events of a run. The tolerance is half a unit of the last decimal shown in the
table, plus half a unit of the last decimal of the numbers in the file (a tenth for spins, a thousandth for energies) for
every number of the file that enters a term. -/
def expected (evs : List EvC) : List (String × ℚ × List (List ℚ)) :=
  let each := fun f : FragC → ℚ => [evs.flatMap fun e => [f e.light, f e.heavy], evs.map fun e => f e.light, evs.map fun e => f e.heavy]
  let sum := fun f : FragC → ℚ => [evs.map fun e => f e.light + f e.heavy, evs.map fun e => f e.light, evs.map fun e => f e.heavy]
  let en := fun g : EvC → List Particle => evs.flatMap fun e => (g e).map (·.e)
  let cm := fun f : FragC => f.neutrons.map Prod.fst
  let lab := fun f : FragC => f.neutrons.map Prod.snd
  let ph := fun f : FragC => f.photons.map Prod.fst
  [("A", 1 / 200, each fun f => f.a), ("Z", 1 / 200, each fun f => f.z), ("TXE / U (MeV)", 1 / 200 + 1 / 1000, sum (·.xe)),
   ("TKE / KE (MeV)", 1 / 200 + 1 / 1000, sum (·.ke)), ("J", 1 / 200 + 1 / 20, each (·.j)), ("parity", 1 / 200, each fun f => f.p),
   ("nu", 1 / 2000, (sum fun f => f.neutrons.length) ++ [evs.map fun e => (e.pren.length : ℚ),
      evs.map fun e => ((e.light.neutrons.length + e.heavy.neutrons.length + e.pren.length : Nat) : ℚ)]),
   ("neutron energy, c.m.", 1 / 2000 + 1 / 2000, [en fun e => cm e.light ++ cm e.heavy, en fun e => cm e.light, en fun e => cm e.heavy]),
   ("neutron energy, lab", 1 / 2000 + 1 / 2000, [en fun e => lab e.light ++ lab e.heavy, en fun e => lab e.light, en fun e => lab e.heavy,
      orZero (en (·.pren)), (en fun e => lab e.light ++ lab e.heavy) ++ en (·.pren)]),
   ("nu gamma", 1 / 200, sum fun f => f.photons.length),
   ("photon energy, lab", 1 / 200 + 1 / 2000, [en fun e => ph e.light ++ ph e.heavy, en fun e => ph e.light, en fun e => ph e.heavy])]

end CGMF.EndToEnd

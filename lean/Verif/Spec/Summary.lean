import Verif.Spec.Toolkit2
import Verif.Model.Text

/-! # What the summary table shows, for C134 and C135 -/

namespace CGMF.Toolkit

open CGMF.Parser CGMF.Text

/-- The text without blanks in front. -/
def trim (s : List Char) : List Char := s.dropWhile (· == ' ')

/-- The cell shows the average of the numbers `xs` to `d` decimals: read as a number it is at most half a unit of the
last decimal away; without any number there is `nan`. -/
def Shows (d : Nat) (xs : List ℚ) (c : List Char) : Prop :=
  (xs = [] → trim c = ['n', 'a', 'n']) ∧
    (xs ≠ [] → ∃ v, pyFloat (trim c) = .ok v ∧ |v - xs.sum / xs.length| ≤ 1 / 2 / 10 ^ d)

/-- Both fragments of all events. -/
def both (f : PyFrag → ℚ) (ps : List (PyFrag × PyFrag)) : List ℚ := ps.flatMap fun p => [f p.1, f p.2]

/-- The light and the heavy fragments. -/
def light (f : PyFrag → ℚ) (ps : List (PyFrag × PyFrag)) : List ℚ := ps.map fun p => f p.1
def heavy (f : PyFrag → ℚ) (ps : List (PyFrag × PyFrag)) : List ℚ := ps.map fun p => f p.2

/-- The sums over the two fragments of an event. -/
def sums (f : PyFrag → ℚ) (ps : List (PyFrag × PyFrag)) : List ℚ := ps.map fun p => f p.1 + f p.2

/-- Energies of particles of all events. -/
def energies (f : PyFrag × PyFrag → List Vec4) (ps : List (PyFrag × PyFrag)) : List ℚ := ps.flatMap fun p => (f p).map (·.e)

/-- Zero instead of nothing: the convention of the table for the mean energy of pre-fission neutrons. -/
def orZero (xs : List ℚ) : List ℚ := if xs = [] then [0] else xs

/-- The table to be expected: label, decimals, and for every cell the numbers averaged. -/
def expected (ps : List (PyFrag × PyFrag)) : List (String × Nat × List (List ℚ)) :=
  let each := fun f => [both f ps, light f ps, heavy f ps]
  let sum := fun f => [sums f ps, light f ps, heavy f ps]
  [("A", 2, each fun f => f.a), ("Z", 2, each fun f => f.z), ("TXE / U (MeV)", 2, sum (·.xe)),
   ("TKE / KE (MeV)", 2, sum (·.ke)), ("J", 2, each (·.j)), ("parity", 2, each fun f => f.p),
   ("nu", 3, (sum fun f => f.nn) ++ [heavy (fun f => f.npn) ps, ps.map fun p => (neutrons p : ℚ)]),
   ("neutron energy, c.m.", 3, [energies (fun p => p.1.cm ++ p.2.cm) ps, energies (·.1.cm) ps, energies (·.2.cm) ps]),
   ("neutron energy, lab", 3, [energies (fun p => p.1.lab ++ p.2.lab) ps, energies (·.1.lab) ps, energies (·.2.lab) ps,
      orZero (energies preNeutrons ps), energies (fun p => p.1.lab ++ p.2.lab) ps ++ energies preNeutrons ps]),
   ("nu gamma", 2, sum fun f => f.ng),
   ("photon energy, lab", 2, [energies (fun p => p.1.phot ++ p.2.phot) ps, energies (·.1.phot) ps, energies (·.2.phot) ps])]

end CGMF.Toolkit

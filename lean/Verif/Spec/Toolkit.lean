import Verif.Model.Toolkit

/-! # Events, pairs of neutrons and counts, for the statements about the toolkit -/

namespace CGMF.Toolkit

open CGMF.Parser

/-- The fragments of a list of events, light and heavy alternating as in a history file. -/
def flat (ps : List (PyFrag × PyFrag)) : List PyFrag := ps.flatMap fun p => [p.1, p.2]

/-- The unordered pairs of different entries, each once. -/
def distinct {α : Type} : List α → List (α × α)
  | [] => []
  | a :: l => (l.map fun b => (a, b)) ++ distinct l

/-- Neutrons of an event, pre-fission ones included. -/
def neutrons (p : PyFrag × PyFrag) : Int := p.1.nn + p.2.nn + p.2.npn

/-- Photons of an event of energy at least `eth`. -/
def photons (eth : ℚ) (p : PyFrag × PyFrag) : Nat :=
  ((p.1.phot ++ p.2.phot).filter fun g => decide (eth ≤ g.e)).length

/-- Average over events. -/
def average (f : PyFrag × PyFrag → ℚ) (ps : List (PyFrag × PyFrag)) : ℚ := (ps.map f).sum / ps.length

end CGMF.Toolkit

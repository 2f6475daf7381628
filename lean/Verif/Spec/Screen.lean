import Verif.Spec.EndToEnd
import Verif.Spec.Driver

/-! # Numbers on the screen and numbers in the notebook, for C137 -/

namespace CGMF.EndToEnd

open CGMF.Spec CGMF.Toolkit CGMF.Text

/-- What the program's own bookkeeping sees of an event. -/
def contentOf (c : EvC) : Content ℚ :=
  { aL := c.light.a, zL := c.light.z, aH := c.heavy.a, zH := c.heavy.z, keL := c.light.ke, keH := c.heavy.ke,
    xeL := c.light.xe, xeH := c.heavy.xe, jL := c.light.j, jH := c.heavy.j,
    lightNeutrons := c.light.neutrons.map fun p => (p.1.e, p.2.e), heavyNeutrons := c.heavy.neutrons.map fun p => (p.1.e, p.2.e),
    preNeutrons := c.pren.map (·.e), lightPhotons := c.light.photons.map (·.1.e), heavyPhotons := c.heavy.photons.map (·.1.e) }

/-- A number of a table with labelled rows. -/
def entry (t : List (String × List (List Char))) (label : String) (k : Nat) : Option (List Char) :=
  (t.find? fun r => r.1 == label).bind fun r => r.2[k]?

/-- The two places of a quantity: line and position on the screen, row and column in the notebook; and how far apart they
may be: half a unit of the last decimal on both sides, and the decimals of the file. -/
def places : List ((String × Nat) × (String × Nat) × ℚ) :=
  [(("light (Z,A)", 0), ("Z", 1), 1 / 100), (("light (Z,A)", 1), ("A", 1), 1 / 100),
   (("heavy (Z,A)", 0), ("Z", 2), 1 / 100), (("heavy (Z,A)", 1), ("A", 2), 1 / 100),
   (("kinetic energies", 0), ("TKE / KE (MeV)", 1), 11 / 1000), (("kinetic energies", 1), ("TKE / KE (MeV)", 2), 11 / 1000),
   (("kinetic energies", 2), ("TKE / KE (MeV)", 0), 11 / 1000),
   (("excitation energies", 0), ("TXE / U (MeV)", 1), 11 / 1000), (("excitation energies", 1), ("TXE / U (MeV)", 2), 11 / 1000),
   (("excitation energies", 2), ("TXE / U (MeV)", 0), 11 / 1000),
   (("spins", 0), ("J", 1), 6 / 100), (("spins", 1), ("J", 2), 6 / 100), (("spins", 2), ("J", 0), 6 / 100),
   (("neutrons", 0), ("nu", 1), 11 / 2000), (("neutrons", 1), ("nu", 2), 11 / 2000), (("neutrons", 2), ("nu", 3), 11 / 2000),
   (("neutrons", 3), ("nu", 4), 11 / 2000),
   (("neutrons, c-o-m", 0), ("neutron energy, c.m.", 1), 6 / 1000), (("neutrons, c-o-m", 1), ("neutron energy, c.m.", 2), 6 / 1000),
   (("neutrons, lab", 0), ("neutron energy, lab", 1), 6 / 1000), (("neutrons, lab", 1), ("neutron energy, lab", 2), 6 / 1000),
   (("neutrons, lab", 2), ("neutron energy, lab", 3), 6 / 1000), (("neutrons, lab", 3), ("neutron energy, lab", 4), 6 / 1000),
   (("photons", 0), ("nu gamma", 1), 1 / 100), (("photons", 1), ("nu gamma", 2), 1 / 100), (("photons", 2), ("nu gamma", 0), 1 / 100),
   (("photon energies", 0), ("photon energy, lab", 1), 21 / 2000), (("photon energies", 1), ("photon energy, lab", 2), 21 / 2000),
   (("photon energies", 2), ("photon energy, lab", 0), 21 / 2000)]

/-- The two texts agree up to `tol`; an average of nothing is `nan` in the notebook and zero on the screen. -/
def Agree (tol : ℚ) (x c : List Char) : Prop :=
  (trim c = ['n', 'a', 'n'] ∧ pyFloat x = .ok 0) ∨ ∃ u v, pyFloat x = .ok u ∧ pyFloat (trim c) = .ok v ∧ |u - v| ≤ tol

end CGMF.EndToEnd

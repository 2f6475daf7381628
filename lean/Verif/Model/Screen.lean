import Verif.Model.Driver
import Verif.Model.Text

/-!
# The summary on the screen

utils/cgmf/cgmf.cpp, `printSummaryEvents`, lines 328-357: the numbers as text. The numbers themselves are in
`Model/Driver.lean` (`summary`); the words around them are left out.
-/

namespace CGMF.Driver

open CGMF.Text

/-- The lines with numbers (328, 329, 331, 334, 337, 342, 345, 348, 353, 356); every number is written with `%.2f`. -/
def screen (s : Summary ℚ) : List (String × List (List Char)) :=
  [("light (Z,A)", [fmtFixed 2 s.zL, fmtFixed 2 s.aL]),
   ("heavy (Z,A)", [fmtFixed 2 s.zH, fmtFixed 2 s.aH]),
   ("kinetic energies", [fmtFixed 2 s.keL, fmtFixed 2 s.keH, fmtFixed 2 s.tke]),
   ("excitation energies", [fmtFixed 2 s.xeL, fmtFixed 2 s.xeH, fmtFixed 2 s.txe]),
   ("spins", [fmtFixed 2 s.jL, fmtFixed 2 s.jH, fmtFixed 2 s.j]),
   ("neutrons", [fmtFixed 2 s.nuL, fmtFixed 2 s.nuH, fmtFixed 2 s.nuPre, fmtFixed 2 s.nuTot]),
   ("neutrons, c-o-m", [fmtFixed 2 s.ecmL, fmtFixed 2 s.ecmH, fmtFixed 2 s.ecmPre, fmtFixed 2 s.ecmTot]),
   ("neutrons, lab", [fmtFixed 2 s.elabL, fmtFixed 2 s.elabH, fmtFixed 2 s.elabPre, fmtFixed 2 s.elabTot]),
   ("photons", [fmtFixed 2 s.nugL, fmtFixed 2 s.nugH, fmtFixed 2 s.nugTot]),
   ("photon energies", [fmtFixed 2 s.egL, fmtFixed 2 s.egH, fmtFixed 2 s.egTot])]

end CGMF.Driver

import Verif.Model.Parser

/-!
# The message of the reader of histories

tools/CGMFtk/histories.py 212-219 and 323-325: the masses of the two fragments and the pre-fission neutrons of an event are compared with
the mass of the compound nucleus.  A difference is printed ("Incorrect number of pre-fission neutrons! -- ABORT!"); reading goes on.
-/

namespace CGMF.Parser

/-- `Ac` (histories.py:213-219): the mass of the nucleus in the header, plus the incident neutron unless the energy is zero. -/
def compoundMass (h : PyHeader) : Int :=
  let ac := h.zaid - 1000 * h.zaid.tdiv 1000 + 1
  if h.einc = 0 then ac - 1 else ac

/-- `Ac-Al-Ah!=npn` (histories.py:250-253, 324-325), event by event: is the message printed? -/
def messages (ac : Int) : List PyFrag → List Bool
  | l :: r :: fs => decide (ac - l.a - r.a ≠ r.npn) :: messages ac fs
  | _ => []

end CGMF.Parser

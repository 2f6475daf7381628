import Verif.Model.Memory

/-! What the claim about memory (C129) speaks of. -/

namespace CGMF.Mem
open CGMF

/-- The data of the event are there: a spontaneous fission (no pre-fission neutron), or a listed target with an incident energy in the
tabulated range. -/
def Fine (c : Choice) : Prop :=
  c.sf = true ∧ c.npfn = 0 ∨ c.sf = false ∧ c.inRange = true ∧ ∃ b ∈ c.file, b.target = true

/-- Blocks that a call for fission yields keeps: object 1, tables, shared arrays, two arrays of fragments, fragment object with its arrays. -/
def kept (nuclei : Nat) (c : Choice) : Nat :=
  1 + (4 + nuclei) + 50075 + 2 + 2504 + (if c.sf then 0 else 1) + (if 0 < c.npfn then 2 else 0)

end CGMF.Mem

import Verif.Model.Event

/-!
# Specification of the event view

`Joined get f light heavy nL nH`: what a user expects of an indexed getter of an event made of a
light-fragment list followed by a heavy-fragment list.
-/

namespace CGMF.Spec

open CGMF CGMF.Event

/-- Indices `0..nL-1` show the first list, `nL..nL+nH-1` the second, anything else is `-1`. -/
def Joined {K : Type _} [Field K] (get : Int → Res K) (f : K → K) (light heavy : List K)
    (nL nH : Nat) : Prop :=
  (∀ i : Nat, i < nL → ∃ x, light[i]? = some x ∧ get (i : Int) = .ok (f x)) ∧
  (∀ i : Nat, i < nH → ∃ x, heavy[i]? = some x ∧ get ((nL : Int) + i) = .ok (f x)) ∧
  (∀ i : Int, i < 0 ∨ (nL : Int) + nH ≤ i → get i = .ok (-1))

/-- A fragment record whose arrays have the C sizes and whose counts fit in them. -/
structure WellFormed {K : Type _} (r : FragRecord K) : Prop where
  nu_le : r.nu ≤ 10
  nug_le : r.nug ≤ 50
  neutrons : ∀ l ∈ [r.neutronEnergies, r.neutronDircosu, r.neutronDircosv, r.neutronDircosw,
    r.cmNeutronEnergies, r.cmNeutronDircosu, r.cmNeutronDircosv, r.cmNeutronDircosw],
    l.length = 10
  photons : ∀ l ∈ [r.photonEnergies, r.photonDircosu, r.photonDircosv, r.photonDircosw,
    r.photonAges], l.length = 50

end CGMF.Spec

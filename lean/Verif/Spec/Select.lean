import Verif.Model.Cascade

/-!
# Selection rules

Spins are doubled.
-/

namespace CGMF.HF

/-- `a`, `b`, `c` can couple. -/
def Triangle (a b c : Int) : Prop := |a - b| ≤ c ∧ c ≤ a + b

instance (a b c : Int) : Decidable (Triangle a b c) := by unfold Triangle; infer_instance

/-- A photon of the given multipole can connect spin-parity `(J, p)` with `(J', p')`: dipole or quadrupole
coupling, no transition between two spin-zero states, parity changes for E1 only. -/
def PhotonBy (mu : Mult) (J p J' p' : Int) : Prop :=
  ¬ (J = 0 ∧ J' = 0) ∧
  match mu with
  | .E1 => Triangle J 2 J' ∧ p' = -p
  | .M1 => Triangle J 2 J' ∧ p' = p
  | .E2 => Triangle J 4 J' ∧ p' = p

instance (mu : Mult) (J p J' p' : Int) : Decidable (PhotonBy mu J p J' p') := by
  unfold PhotonBy; cases mu <;> infer_instance

/-- A neutron with orbital momentum `l` and (doubled) total momentum `j` can connect the two states. -/
def NeutronBy (l : Nat) (j J p J' p' : Int) : Prop :=
  0 ≤ j ∧ (j = 2 * l + 1 ∨ j = 2 * l - 1) ∧ Triangle J j J' ∧ p' = p * (-1) ^ l

instance (l : Nat) (j J p J' p' : Int) : Decidable (NeutronBy l j J p J' p') := by
  unfold NeutronBy; infer_instance

variable {K : Type} [Field K] [LinearOrder K]

/-- Photon transmission between two states: sum over the multipoles that connect them. -/
def photonStrength (t : Mult → K) (J p J' p' : Int) : K :=
  (if PhotonBy .E1 J p J' p' then t .E1 else 0) + (if PhotonBy .M1 J p J' p' then t .M1 else 0) +
  (if PhotonBy .E2 J p J' p' then t .E2 else 0)

/-- Neutron transmission between two states: sum over the partial waves `l <= lmax`, `j = l + 1/2` and
`j = l - 1/2`, that connect them.  The coefficients of the two are stored at `3 l` and `3 l + 1`. -/
def neutronStrength (lmax : Nat) (t : Nat → K) (J p J' p' : Int) : K :=
  ((List.range (lmax + 1)).map fun l : Nat =>
    (if NeutronBy l (2 * l + 1) J p J' p' then t (3 * l) else 0) +
    (if NeutronBy l (2 * l - 1) J p J' p' then t (3 * l + 1) else 0)).sum

/-- State `c` of a list of states with populations is the one whose cumulative interval contains `r`. -/
def Chosen {α : Type} (l : List (α × K)) (r : K) (c : α) : Prop :=
  ∃ l1 y l2, l = l1 ++ (c, y) :: l2 ∧ (l1.map Prod.snd).sum < r ∧ r ≤ (l1.map Prod.snd).sum + y

/-- Populations of a bin, `(even, odd)` per spin, form a probability distribution. -/
def IsDistribution (pop : List (K × K)) : Prop :=
  (∀ x ∈ pop, 0 ≤ x.1 ∧ 0 ≤ x.2) ∧ (pop.map fun x => x.1 + x.2).sum = 1

/-- A level that a forced transition from a state of (doubled) spin `J` and parity `p` prefers. -/
def Preferred (l : Level K) (J p : Int) : Prop := l.parity * p ≤ 0 ∧ |l.spin2 - J| < 4 ∧ 2 ≤ l.spin2 + J

instance (l : Level K) (J p : Int) : Decidable (Preferred l J p) := by unfold Preferred; infer_instance

open CGMF.MC CGMF.Grid in
/-- The point that a state stands for: in the parent nucleus (number `c0`) or in the daughter, in a
continuum bin or on a discrete level. -/
def Denotes (c0 : Nat) (n0 n1 : Nuc K) (m0 m1 : Mesh K) : Bool × Cell → MCPoint K → Prop
  | (false, .cont k j even), x => x = ⟨c0, if even then 1 else -1, j, k, m0.exc k, false⟩
  | (true, .cont k j even), x => x = ⟨n0.next, if even then 1 else -1, j, k, m1.exc k, false⟩
  | (false, .disc i), x => ∃ l, n0.levels[i]? = some l ∧ x = ⟨c0, l.parity, 0, i, l.energy, true⟩
  | (true, .disc i), x => ∃ l, n1.levels[i]? = some l ∧ x = ⟨n0.next, l.parity, 0, i, l.energy, true⟩

end CGMF.HF

import Verif.Model.Ripl

/-!
# What a level read from the data file should be

Independent of the loops of the reader: for each level record the branches it must have.
-/

namespace CGMF.Spec

open CGMF.Ripl

variable {K : Type} [Field K] [LinearOrder K]

/-- Both spins zero: no single-photon transition. -/
def ZeroZero (s s' : Int) : Prop := s = 0 ∧ s' = 0

instance (s s' : Int) : Decidable (ZeroZero s s') := by unfold ZeroZero; infer_instance

/-- Partner for an electric dipole transition: opposite parity and spins (doubled) differing by less
than two units of angular momentum. -/
def Dipole (s p : Int) (l : Raw K) : Prop := ¬ ZeroZero s l.spin2 ∧ l.parity ≠ p ∧ |l.spin2 - s| < 4

instance (s p : Int) (l : Raw K) : Decidable (Dipole s p l) := by unfold Dipole; infer_instance

/-- Spin distance in whole units, rounded down. -/
def distance (s : Int) (l : Raw K) : Int := |l.spin2 - s| / 2

/-- Level `d` is the lowest of the levels `below` nearest in spin to `s`, pairs of spin zero excluded. -/
def Nearest (s : Int) (below : List (Raw K)) (d : Nat) : Prop :=
  ∃ l, below[d]? = some l ∧ ¬ ZeroZero s l.spin2 ∧ distance s l ≤ 100 ∧
    ∀ (j : Nat) (x : Raw K), below[j]? = some x → ¬ ZeroZero s x.spin2 →
      distance s l ≤ distance s x ∧ (j < d → distance s l < distance s x)

/-- Daughters of a level without listed transitions, `below` the levels below it. -/
def Daughters (mb : Nat) (r : Raw K) (below : List (Raw K)) (ds : List Nat) : Prop :=
  if below.length = 1 then ds = [0]
  else
    let e1 := (List.range below.length).filter fun i : Nat =>
      below[i]?.any fun l => decide (Dipole r.spin2 r.parity l)
    if e1 ≠ [] then ds = e1.take (mb - 1)
    else (∃ d, Nearest r.spin2 below d ∧ ds = [d]) ∨ ((¬ ∃ d, Nearest r.spin2 below d) ∧ ds = [0])

/-- Branches of a level with listed transitions: the listed intensities over their sum, or equal
shares when the sum is zero (conversion coefficients then dropped). -/
def listed (gs : List (Gam K)) : List (Branch K) :=
  let S := (gs.map Gam.pe).sum
  gs.map fun g => if S = 0 then ⟨g.nf, 1 / (gs.length : K), 1⟩ else ⟨g.nf, g.pe / S, 1 / (1 + g.ic)⟩

/-- `l` is the level made from record `r` lying above the levels `below`. -/
def MadeFrom (mb : Nat) (below : List (Raw K)) (r : Raw K) (l : Level K) : Prop :=
  l.energy = r.energy ∧ l.spin2 = r.spin2 ∧ l.parity = r.parity ∧ l.halflife = r.halflife ∧
  (r.gammas ≠ [] → l.branches = listed r.gammas) ∧
  (r.gammas = [] → ∃ ds, Daughters mb r below ds ∧
    l.branches = ds.map fun d => ⟨d, 1 / (ds.length : K), 1⟩)

/-- The levels of one nucleus made from its records. -/
def NucleusFrom (mb : Nat) (rs : List (Raw K)) (ls : List (Level K)) : Prop :=
  ls.length = rs.length ∧
  ∀ (i : Nat) (r : Raw K) (l : Level K), rs[i]? = some r → ls[i]? = some l → MadeFrom mb (rs.take i) r l

end CGMF.Spec

import Verif.Spec.Select

/-!
# Hauser-Feshbach formula

Transmission from a state with spin index `j` and parity `p` to each state it can decay to, and the total widths.
`ph` holds the transmission coefficients and level densities.
-/

namespace CGMF.HF

open CGMF.MC CGMF.Grid

variable {K : Type} [Field K] [LinearOrder K]

/-- Transmission to a state of the same nucleus by a photon (`false`) or of the daughter by a neutron (`true`).  For a
continuum bin of width `w` it is multiplied by the number of levels in the bin. -/
def strength (maxJ : Nat) (w : K) (n0 n1 : Nuc K) (m0 m1 : Mesh K) (ph : Phys K) (p j : Int) : Bool × Cell → K
  | (false, .cont k idx even) =>
    photonStrength (fun mu => ph.tgC mu k) (2 * j + i0 n0) p (2 * idx + i0 n0) (if even then 1 else -1) * (ph.dens0 k idx even * w)
  | (false, .disc i) => match n0.levels[i]? with
    | some l => photonStrength (fun mu => ph.tgD mu i) (2 * j + i0 n0) p l.spin2 l.parity
    | none => 0
  | (true, .cont k idx even) =>
    if n0.status = true ∧ n0.sn + m1.exc k ≤ m0.exc 0 ∧ n0.sn ≤ m0.exc 0 ∧ 0 < ph.lmaxC k ∧ 2 * idx + i0 n1 ≤ 2 * ((maxJ : Int) - 1) then
      neutronStrength (ph.lmaxC k).toNat (ph.tranC k) (2 * j + i0 n0) p (2 * idx + i0 n1) (if even then 1 else -1) *
        (ph.dens1 k idx even * w)
    else 0
  | (true, .disc i) => match n1.levels[i]? with
    | some l =>
      if n0.status = true ∧ n0.sn + l.energy ≤ m0.exc 0 ∧ n0.sn ≤ m0.exc 0 ∧ 0 < ph.lmaxD i then
        neutronStrength (ph.lmaxD i).toNat (ph.tranD i) (2 * j + i0 n0) p l.spin2 l.parity
      else 0
    | none => 0

/-- Sum over continuum bins `a <= k < b`, spins below `maxJ` and both parities, and over the levels. -/
def sumStates (maxJ a b nlev : Nat) (f : Cell → K) : K :=
  ((List.range' a (b - a)).map fun k => ((List.range maxJ).map fun i : Nat => f (.cont k i true) + f (.cont k i false)).sum).sum +
  ((List.range nlev).map fun i => f (.disc i)).sum

/-- Total photon transmission; the bin of the state itself is left out. -/
def photonWidth (maxJ : Nat) (w : K) (n0 n1 : Nuc K) (m0 m1 : Mesh K) (ph : Phys K) (p j : Int) : K :=
  sumStates maxJ 1 m0.ncont n0.levels.length fun c => strength maxJ w n0 n1 m0 m1 ph p j (false, c)

/-- Total neutron transmission. -/
def neutronWidth (maxJ : Nat) (w : K) (n0 n1 : Nuc K) (m0 m1 : Mesh K) (ph : Phys K) (p j : Int) : K :=
  sumStates maxJ 0 m1.ncont n1.levels.length fun c => strength maxJ w n0 n1 m0 m1 ph p j (true, c)

/-- The states in the tables: bins, spins and levels that exist. -/
def InTable (maxJ : Nat) (n0 n1 : Nuc K) (m0 m1 : Mesh K) : Bool × Cell → Prop
  | (false, .cont k idx _) => 1 ≤ k ∧ k < m0.ncont ∧ 0 ≤ idx ∧ idx < maxJ
  | (false, .disc i) => i < n0.levels.length
  | (true, .cont k idx _) => k < m1.ncont ∧ 0 ≤ idx ∧ idx < maxJ
  | (true, .disc i) => i < n1.levels.length

/-- Spins of the levels fit the mass number, the daughter's spins differ by one half, parities are `1` or `-1`. -/
structure Fits (n0 n1 : Nuc K) (p : Int) : Prop where
  parity : p = 1 ∨ p = -1
  spins0 : ∀ (i : Nat) (l : Level K), n0.levels[i]? = some l → (l.spin2 - i0 n0) % 2 = 0
  half : i0 n1 = 1 - i0 n0
  parity1 : ∀ (i : Nat) (l : Level K), n1.levels[i]? = some l → l.parity = 1 ∨ l.parity = -1

end CGMF.HF

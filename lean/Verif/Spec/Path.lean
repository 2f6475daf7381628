import Verif.Spec.Spectrum
import Verif.Spec.LawIn

/-!
# Whole decays through the continuum

The value of a pattern of emitted particles is computed backwards: the chance of the first particle, averaged over the states
the pass can select, times the chance of the others from the point reached.
-/

namespace CGMF.HF

open MeasureTheory CGMF.MC CGMF.Grid CGMF.Law

/-- Mean of `f` over energies uniform between `lo` and `hi`. -/
noncomputable def overBin (lo hi : ℝ) (f : ℝ → ENNReal) : ENNReal := ∫⁻ r, f (lo + (hi - lo) * r) ∂unif

/-- Value of `φ` at level `i` of nucleus `c`. -/
def levelValue (levels : List (Level ℝ)) (c : Nat) (φ : MCPoint ℝ → ENNReal) (i : Nat) : ENNReal :=
  match levels[i]? with
  | some l => φ ⟨c, l.parity, 0, i, l.energy, true⟩
  | none => 0

/-- Mean of `φ` at the end of a pass from `m` that selected the given state (of the daughter nucleus if the flag is set). -/
noncomputable def stateValue (cut : ℝ) (m : MCPoint ℝ) (n0 n1 : Nuc ℝ) (m0 m1 : Mesh ℝ) (φ : MCPoint ℝ → ENNReal) :
    Bool × Cell → ENNReal
  | (false, .disc i) => levelValue n0.levels m.n φ i
  | (true, .disc i) => levelValue n1.levels n0.next φ i
  | (true, .cont k j even) => overBin (binBottom m1 (elmax n1.levels) k) (binTop m1 k) fun e =>
      φ ⟨n0.next, if even then 1 else -1, j, k, e, false⟩
  | (false, .cont k j even) => overBin (binBottom m0 (elmax n0.levels) k) (binTop m0 k) fun e =>
      if e < elmax n0.levels + cut then
        ∑ i ∈ Finset.range n0.levels.length, ENNReal.ofReal (forcedTo n0.levels m.p (2 * m.j) i) * levelValue n0.levels m.n φ i
      else φ ⟨m.n, if even then 1 else -1, j, k, e, false⟩

/-- Sum over continuum bins `a <= k < b`, spins below `maxJ` and both parities, and over the levels. -/
noncomputable def sumValues (maxJ a b nlev : Nat) (f : Cell → ENNReal) : ENNReal :=
  ((List.range' a (b - a)).map fun k => ((List.range maxJ).map fun i : Nat => f (.cont k i true) + f (.cont k i false)).sum).sum +
  ((List.range nlev).map fun i => f (.disc i)).sum

/-- The nucleus and grid of a pass from `m`, and those of the daughter if the neutron channel is open (otherwise the nucleus
itself, which no neutron leaves). -/
noncomputable def sites (par : Par ℝ) (m : MCPoint ℝ) : Option ((Nuc ℝ × Mesh ℝ) × (Nuc ℝ × Mesh ℝ)) :=
  match par.chain[m.n]? with
  | none => none
  | some n0 => match setup par.w par.nbin (elmax n0.levels) m.e with
    | .ok m0 =>
      if n0.status then match par.chain[n0.next]? with
        | none => none
        | some n1 => match setup par.w par.nbin (elmax n1.levels) (m.e - n0.sn) with
          | .ok m1 => some ((n0, m0), (n1, m1))
          | _ => none
      else some ((n0, m0), (n0, m0))
    | _ => none

/-- Mean of `φ` at the end of a pass from `m`: each state counts with its transmission. -/
noncomputable def passMean (par : Par ℝ) (φ : MCPoint ℝ → ENNReal) (m : MCPoint ℝ) : ENNReal :=
  match sites par m with
  | none => 0
  | some ((n0, m0), (n1, m1)) =>
    (sumValues par.maxJ 1 m0.ncont n0.levels.length (fun c =>
        ENNReal.ofReal (strength par.maxJ par.w n0 n1 m0 m1 (par.phys m.n m.e) m.p m.j (false, c)) *
          stateValue par.cut m n0 n1 m0 m1 φ (false, c)) +
      sumValues par.maxJ 0 m1.ncont n1.levels.length (fun c =>
        ENNReal.ofReal (strength par.maxJ par.w n0 n1 m0 m1 (par.phys m.n m.e) m.p m.j (true, c)) *
          stateValue par.cut m n0 n1 m0 m1 φ (true, c))) /
    ENNReal.ofReal (photonWidth par.maxJ par.w n0 n1 m0 m1 (par.phys m.n m.e) m.p m.j +
      neutronWidth par.maxJ par.w n0 n1 m0 m1 (par.phys m.n m.e) m.p m.j)

/-- A particle of the given kind with an energy in the given set is emitted between `m` and `x`: a photon if both lie in the
same nucleus, otherwise a neutron, which also costs the separation energy. -/
def Emits (par : Par ℝ) (c : Pid × Set ℝ) (m x : MCPoint ℝ) : Prop :=
  if m.n = x.n then c.1 = .gamma ∧ m.e - x.e ∈ c.2
  else c.1 = .neutron ∧ ∃ n0, par.chain[m.n]? = some n0 ∧ m.e - x.e - n0.sn ∈ c.2

open Classical in
/-- Probability that the particles emitted from `m` down to the first discrete level are those of the pattern, in this order,
and that this is level `i` of nucleus `n` with `Q n i`. -/
noncomputable def patternValue (par : Par ℝ) (Q : Nat → Nat → Prop) : List (Pid × Set ℝ) → MCPoint ℝ → ENNReal
  | [], m => if m.disc = true ∧ Q m.n m.k then 1 else 0
  | c :: cs, m => if m.disc = true then 0 else
      passMean par (fun x => if Emits par c m x then patternValue par Q cs x else 0) m

/-- The history entries are those of the pattern. -/
def Matches (cs : List (Pid × Set ℝ)) (ys : List (Hist ℝ)) : Prop :=
  List.Forall₂ (fun c y => y.id = c.1 ∧ y.ep ∈ c.2) cs ys

/-- A complete history: the particles of the pattern `cs`, emitted in the continuum, then those of the cascade `q` through the
levels of nucleus `c` (each with the level it leaves and whether it is a conversion electron), then an entry for the ground state
of this nucleus. -/
def Records (c : Nat) (cs : List (Pid × Set ℝ)) (q : List (Nat × Bool)) (hs : List (Hist ℝ)) : Prop :=
  ∃ ys zs z, hs = ys ++ zs ++ [z] ∧ Matches cs ys ∧ (∀ y ∈ ys, y.mp.disc = false) ∧
    zs.map (fun h => (h.mp.disc, h.mp.n, h.mp.k, h.id)) = q.map (fun x => (true, c, x.1, if x.2 then Pid.ic else Pid.gamma)) ∧
    z.mp.n = c ∧ z.mp.k = 0

/-- The points that passes starting at `m` reach with random numbers between zero and one. -/
inductive Reached (par : Par ℝ) (m : MCPoint ℝ) : MCPoint ℝ → Prop
  | start : Reached par m m
  | pass {x y : MCPoint ℝ} {st st' : St ℝ} {s : List ℝ} : Reached par m x → x.disc = false → (∀ r ∈ s, 0 < r ∧ r < 1) →
      contStep par st x s = .ok ((st', y), []) → Reached par m y

/-- Transmission coefficients and level densities are measurable functions of the energy. -/
structure PhysMeasurable (ph : ℝ → Phys ℝ) : Prop where
  tgC : ∀ mu k, Measurable fun e => (ph e).tgC mu k
  tgD : ∀ mu k, Measurable fun e => (ph e).tgD mu k
  dens0 : ∀ k j b, Measurable fun e => (ph e).dens0 k j b
  dens1 : ∀ k j b, Measurable fun e => (ph e).dens1 k j b
  lmaxC : ∀ k, Measurable fun e => (ph e).lmaxC k
  tranC : ∀ k i, Measurable fun e => (ph e).tranC k i
  lmaxD : ∀ k, Measurable fun e => (ph e).lmaxD k
  tranD : ∀ k i, Measurable fun e => (ph e).tranD k i

/-- A chain of nuclei in which no decay from an energy up to `E` gets stuck: the grid reaches beyond `E`, every nucleus has levels
whose spins are all integer or all half-integer, neutron emission leads to another nucleus of the other kind, and every continuum
state has an open photon channel. -/
structure Chained (par : Par ℝ) (E : ℝ) : Prop where
  spins : 0 < par.maxJ
  width : 0 < par.w
  room : 1 < par.cap
  grid : ∃ k < par.nbin, E < par.w * (k + 1 / 2)
  levels : ∀ n0 ∈ par.chain, n0.levels ≠ [] ∧ 0 ≤ elmax n0.levels
  other : ∀ (n : Nat) (n0 : Nuc ℝ), par.chain[n]? = some n0 → n ≠ n0.next
  daughter : ∀ n0 ∈ par.chain, n0.status = true → 0 ≤ n0.sn ∧ ∃ n1, par.chain[n0.next]? = some n1 ∧ i0 n1 = 1 - i0 n0
  level : ∀ n0 ∈ par.chain, ∀ l ∈ n0.levels, (l.spin2 - i0 n0) % 2 = 0 ∧ (l.parity = 1 ∨ l.parity = -1)
  phys : ∀ n e, PhysNonneg (par.phys n e)
  photon : ∀ (n : Nat) (n0 n1 : Nuc ℝ) (m0 m1 : Mesh ℝ) (p j : Int) (e : ℝ), par.chain[n]? = some n0 → (p = 1 ∨ p = -1) → 0 ≤ j → j < (par.maxJ : Int) → e ≤ E →
    setup par.w par.nbin (elmax n0.levels) e = .ok m0 → 0 < photonWidth par.maxJ par.w n0 n1 m0 m1 (par.phys n e) p j

/-- A point of the chain with a parity, a spin below the limit and an energy up to `E`. -/
def InRange (par : Par ℝ) (E : ℝ) (x : MCPoint ℝ) : Prop :=
  (∃ n0, par.chain[x.n]? = some n0) ∧ (x.p = 1 ∨ x.p = -1) ∧ 0 ≤ x.j ∧ x.j < (par.maxJ : Int) ∧ x.e ≤ E

end CGMF.HF

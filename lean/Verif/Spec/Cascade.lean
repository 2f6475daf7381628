import Verif.Model.Cascade

/-!
# What a decay history should be
-/

namespace CGMF.MC

variable {K : Type} [Field K] [LinearOrder K]

/-- One recorded decay from `h.mp` to `b`: a neutron leads to the nucleus with one neutron less and
carries the energy difference minus the separation energy; a photon or conversion electron stays in
the nucleus and carries the energy difference. -/
def Step (sn : Nat → K) (h : Hist K) (b : MCPoint K) : Prop :=
  (h.id = .neutron ∧ b.n = h.mp.n + 1 ∧ h.mp.e = h.ep + sn h.mp.n + b.e) ∨
  (h.id ≠ .neutron ∧ b.n = h.mp.n ∧ h.mp.e = h.ep + b.e)

/-- The entries `hs` lead from `a` to `b`: each entry starts where the previous one ended. -/
inductive Path (sn : Nat → K) (a : MCPoint K) : List (Hist K) → MCPoint K → Prop where
  | nil : Path sn a [] a
  | snoc {hs : List (Hist K)} {b c : MCPoint K} {h : Hist K} :
      Path sn a hs b → h.mp = b → Step sn h c → Path sn a (hs ++ [h]) c

/-- Number of neutrons in a history. -/
def countN (hs : List (Hist K)) : Nat := (hs.filter (fun h => h.id = .neutron)).length

/-- Separation energies of a chain. -/
def snOf (chain : List (Nuc K)) (i : Nat) : K :=
  match chain[i]? with
  | some n => n.sn
  | none => 0

/-- Each open neutron channel leads to the next nucleus of the chain. -/
def ChainNext (chain : List (Nuc K)) : Prop :=
  ∀ i n, chain[i]? = some n → n.status = true → n.next = i + 1

/-- Energy needed to remove `k` neutrons from nucleus `(z, a)`, from the mass excesses `M` and the
neutron mass excess `en`. -/
def sepSum (M : Int → Int → K) (en : K) (z a : Int) (k : Nat) : K := M z (a - k) + k * en - M z a

/-- Energies of the entries with a given identifier, in order. -/
def energies (id : Pid) (hs : List (Hist K)) : List K := (hs.filter (fun h => h.id = id)).map (·.ep)

/-- The entries `hs` walk down the level scheme from level `i` to level `f` along branches. -/
inductive Walk (levels : List (Level K)) (c : Nat) : Nat → List (Hist K) → Nat → Prop where
  | nil (i : Nat) : Walk levels c i [] i
  | snoc {i j : Nat} {hs : List (Hist K)} {l l1 : Level K} {b : Branch K} {id : Pid} :
      Walk levels c i hs j → levels[j]? = some l → b ∈ l.branches → levels[b.fstate]? = some l1 →
      (id = .gamma ∨ id = .ic) →
      Walk levels c i (hs ++ [⟨id, l.energy - l1.energy, ⟨c, l.parity, 0, j, l.energy, true⟩⟩]) b.fstate

/-- A level scheme: at least the ground state, energies non-negative and ascending, branches lead to
lower levels. -/
structure LevelsOK (levels : List (Level K)) : Prop where
  ne : levels ≠ []
  nonneg : ∀ l ∈ levels, 0 ≤ l.energy
  sorted : ∀ (i j : Nat) (a b : Level K), i ≤ j → levels[i]? = some a → levels[j]? = some b → a.energy ≤ b.energy
  down : ∀ (i : Nat) (l : Level K), levels[i]? = some l → ∀ b ∈ l.branches, b.fstate ≤ i

/-- All nuclei of the chain have proper level schemes. -/
def ChainLevels (chain : List (Nuc K)) : Prop := ∀ n ∈ chain, LevelsOK n.levels

/-- Every excited level decays: its branches sum to at least one and lead to lower levels. -/
def Decays (levels : List (Level K)) : Prop :=
  ∀ i l, i ≠ 0 → levels[i]? = some l →
    1 ≤ (l.branches.map (·.branch)).sum ∧ ∀ b ∈ l.branches, b.fstate < i

/-- Largest number of levels in a chain. -/
def LevelsAtMost (chain : List (Nuc K)) (L : Nat) : Prop := ∀ n ∈ chain, n.levels.length ≤ L

/-- The decay starts in the continuum: `el` is the energy of the highest discrete level, `w` the bin
width. -/
def StartsInContinuum (w el E : K) : Prop := (el = 0 ∧ w / 2 ≤ E) ∨ (0 < el ∧ el + w ≤ E ∧ 3 * w / 2 ≤ E)

end CGMF.MC

namespace CGMF.HF

variable {K : Type} [Field K] [LinearOrder K]

/-- Transmission coefficients and densities are non-negative. -/
structure PhysNonneg (ph : Phys K) : Prop where
  tgC : ∀ mu k, 0 ≤ ph.tgC mu k
  tgD : ∀ mu k, 0 ≤ ph.tgD mu k
  dens0 : ∀ k i e, 0 ≤ ph.dens0 k i e
  dens1 : ∀ k i e, 0 ≤ ph.dens1 k i e
  tranC : ∀ k i, 0 ≤ ph.tranC k i
  tranD : ∀ k i, 0 ≤ ph.tranD k i

end CGMF.HF

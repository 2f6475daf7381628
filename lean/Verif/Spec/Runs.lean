import Verif.Spec.Path
import Verif.Spec.Fresh
import Verif.Spec.Branching

/-!
# Events as sequences of decays

An event decays its fragments one after the other with one stream of random numbers.
-/

namespace CGMF.HF

open MeasureTheory CGMF.MC CGMF.Grid CGMF.Law CGMF.Branching

/-- What is asked of the decay of one fragment: the particles `cs` in the continuum, then the cascade `q` through the levels of
nucleus `c` of its chain. -/
structure Want where
  c : Nat
  cs : List (Pid × Set ℝ)
  q : List (Nat × Bool)

/-- The nuclei of a fragment: as many neutrons as its energy allows. -/
def IsChain (b : Job ℝ) (chain : List (Nuc ℝ)) : Prop :=
  ∃ n e0, totalNeutrons b.tb b.z b.a b.e = .ok n ∧ initSystem b.tb e0 b.z b.a n b.e = .ok chain

/-- Conditions under which the law of a decay is known: see `Chained`; the cascade goes through levels of a proper scheme, there is
room for the particles in arrays for `N` time stamps, and either there is no coincidence window or no level has a half-life. -/
structure Ready (N : Nat) (par : Par ℝ) (E : ℝ) (j : Int) (w : Want) : Prop where
  chained : Chained par E
  measurable : ∀ n, PhysMeasurable (par.phys n)
  spin : 0 ≤ j ∧ j < par.maxJ
  nucleus : ∃ n, par.chain[w.c]? = some n ∧ Proper n.levels ∧ start w.q < n.levels.length ∧
    (par.window ≤ 0 ∨ ∀ (i : Nat) (l : Level ℝ), n.levels[i]? = some l → l.halflife ≤ 0)
  sets : ∀ c ∈ w.cs, MeasurableSet c.2
  room : w.cs.length + start w.q < par.cap ∧ w.cs.length + start w.q ≤ N

/-- The same for a fragment, whose nuclei are those of the chain. -/
def JobReady (N : Nat) (b : Job ℝ) (chain : List (Nuc ℝ)) (w : Want) : Prop :=
  IsChain b chain ∧ HF.Ready N { b.par with chain := chain } b.e b.j w

open Classical in
/-- Probability of what is asked in one decay from energy `E`, spin index `j` and the parity of `p`: for a fragment that starts on a
level (its energy is not above the last one) the cascade has to start there; otherwise the value of the pattern in the continuum.
Both times the branching ratios. -/
noncomputable def decayChance (par : Par ℝ) (E : ℝ) (j p : Int) (w : Want) : ENNReal :=
  match par.chain[0]?, par.chain[w.c]? with
  | some n0, some n => match setup par.w par.nbin (elmax n0.levels) E with
    | .ok m0 => (if m0.ncont = 0 then (if w.cs = [] ∧ w.c = 0 ∧ start w.q = startLevel n0 m0 E then 1 else 0)
        else patternValue par (fun n i => n = w.c ∧ i = start w.q) w.cs ⟨0, if p < 0 then -1 else 1, j, 0, E, false⟩) *
        ENNReal.ofReal (weight n.levels w.q)
    | _ => 0
  | _, _ => 0

/-- The same for a fragment with the given nuclei. -/
noncomputable def jobChance (b : Job ℝ) (chain : List (Nuc ℝ)) (w : Want) : ENNReal :=
  decayChance { b.par with chain := chain } b.e b.j b.p w

/-- The histories a program shows are those asked for. -/
def Shows (ws : List Want) (r : List (List (Hist ℝ) × Res (Rec ℝ))) : Prop :=
  List.Forall₂ (fun w x => Records w.c w.cs w.q x.1) ws r

end CGMF.HF

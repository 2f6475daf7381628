import Verif.Model.FloatDecay
import Verif.Model.FloatPick
import Verif.Model.HF

/-!
# One pass of the loop of a decay in the continuum, in double arithmetic

The populations are those of the exact model (Model/HF) or any others; here they are a list of numbers.
-/

namespace CGMF.Pick

open CGMF.Fp CGMF.HF

/-- A state `mcFindNext` can choose (specmc.cpp:425-487): a state of bin `k` of the decaying nucleus (`own`) or of the nucleus after
a neutron, or a level with its energy. Spin and parity are left out: different states are different entries of the list. -/
inductive Target where
  | bin (own : Bool) (k : Nat)
  | level (e : ℝ)

/-- What a pass ends in: state `i` of the list with an energy, or a level of the decaying nucleus to which the transition was forced,
from state `i` or because nothing was chosen. -/
inductive Reached where
  | state (i : Nat) (e : ℝ)
  | forced (i : Option Nat) (level : Nat)

/-- One pass of the loop of `mcHistoryLoop` after the populations are known (specmc.cpp:351-400 with `mcFindNext`, 420-519): the choice by
running sums over the populations, the energy within the bin, the comparison with the highest level `top0` plus
`CONTINUUM_LOWER_CUT` and the forced transitions from spin index `j` and parity `p`. `ex0`, `ex1` and `top0`, `top1` are the meshes and
highest levels of the decaying nucleus and of that after a neutron. -/
noncomputable def pass (fl : ℝ → ℝ) (cut : ℝ) (ex0 ex1 : Nat → ℝ) (top0 top1 : ℝ) (levels : List (Level ℝ)) (p j : Int)
    (ts : List (Target × ℝ)) : Rnd ℝ Reached := do
  let r ← Rnd.draw
  match pickSum fl 0 r (ts.map (·.2)) with
  | none => do
    let q ← forced levels p j
    pure (.forced none q)
  | some i =>
    match ts[i]? with
    | some (.level e, _) => pure (.state i e)
    | some (.bin true k, _) => do
      let r' ← Rnd.draw
      if within fl ex0 top0 k r' < fl (top0 + cut) then do
        let q ← forced levels p j
        pure (.forced (some i) q)
      else pure (.state i (within fl ex0 top0 k r'))
    | some (.bin false k, _) => do
      let r' ← Rnd.draw
      pure (.state i (within fl ex1 top1 k r'))
    | none => fun _ => .ub

end CGMF.Pick

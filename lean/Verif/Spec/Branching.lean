import Verif.Model.Levels
import Verif.Tactics
import Mathlib.Data.Real.Basic

/-!
# Probability of a cascade through discrete levels

A cascade is the list of the levels left one after the other, each with `true` when the transition is
converted (an electron is emitted) and `false` when a photon is emitted; it ends in the ground state.
-/

namespace CGMF.Branching

/-- Level a cascade starts from; the empty one is already in the ground state. -/
def start : List (Nat × Bool) → Nat
  | [] => 0
  | (u, _) :: _ => u

/-- Probability of going from level `l` to level `v`, with or without conversion. -/
noncomputable def step (l : Level ℝ) (v : Nat) (conv : Bool) : ℝ :=
  (l.branches.map fun b => if b.fstate = v then b.branch * (if conv then 1 - b.gratio else b.gratio) else 0).sum

/-- Product of the branching ratios along a cascade. -/
noncomputable def weight (levels : List (Level ℝ)) : List (Nat × Bool) → ℝ
  | [] => 1
  | (u, conv) :: q =>
    match levels[u]? with
    | none => 0
    | some l => if u = 0 then 0 else step l (start q) conv * weight levels q

/-- Level data with branching ratios that add up to one, each going down. -/
structure Proper (levels : List (Level ℝ)) : Prop where
  down : ∀ (i : Nat) (l : Level ℝ), levels[i]? = some l → ∀ b ∈ l.branches, b.fstate < i
  nonneg : ∀ (i : Nat) (l : Level ℝ), levels[i]? = some l → ∀ b ∈ l.branches, 0 ≤ b.branch
  conv : ∀ (i : Nat) (l : Level ℝ), levels[i]? = some l → ∀ b ∈ l.branches, 0 ≤ b.gratio ∧ b.gratio ≤ 1
  total : ∀ (i : Nat) (l : Level ℝ), i ≠ 0 → levels[i]? = some l → (l.branches.map (·.branch)).sum = 1

end CGMF.Branching

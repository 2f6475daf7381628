import Verif.Model.FloatPick

/-!
# The photons of a discrete level in double arithmetic

From the intensities in the level file to the photon emitted: `riplNormalizeBranch`, the electron conversion and one turn of the loop of
`mcGammaCascade`.
-/

namespace CGMF.Pick

open CGMF.Fp

variable (fl : ℝ → ℝ)

/-- `riplNormalizeBranch` (ripl2levels.cpp:445-470) on the list of the intensities `pe` and conversion coefficients `ic` of a level.
Simplification: the lists have `ng` entries, as many as are used. -/
noncomputable def normalizeBranch (g : List (ℝ × ℝ)) : List (ℝ × ℝ) :=
  let s := g.foldl (fun s x => fl (s + x.1)) 0
  if s = 0 then
    if 1 < g.length then g.map fun _ => (fl (1 / g.length), 0) else [(1, 0)]
  else
    let t := fl (1 / s)
    g.map fun x => (fl (x.1 * t), x.2)

/-- `1.0/(1.0 + ic[j])` (ripl2levels.cpp:180). -/
noncomputable def gratio (ic : ℝ) : ℝ := fl (1 / fl (1 + ic))

/-- The choice of a transition and of conversion (specmc.cpp:565-575) on the outputs of the engine for the two random numbers: the number of
the transition and whether an electron takes the place of the photon; `none` if the running sum stays below the random number and the level
is kept. -/
noncomputable def transition (g : List (ℝ × ℝ)) (w : Pair × Pair) : Option (Nat × Bool) :=
  match pickSum fl 0 (rng fl w.1) (g.map (·.1)) with
  | none => none
  | some j => some (j, decide (gratio fl ((g.map (·.2)).getD j 0) < rng fl w.2))

end CGMF.Pick

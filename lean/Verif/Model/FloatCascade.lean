import Verif.Model.FloatBranch

/-!
# The cascade of photons through the levels in double arithmetic
-/

namespace CGMF.Pick

/-- The transitions of each level as in the level file: final level, intensity and conversion coefficient. -/
abbrev Scheme := Nat → List (Nat × ℝ × ℝ)

/-- The loop of `mcGammaCascade` (specmc.cpp:533-590) from level `i` on the outputs of the engine for the passes: the transitions taken, each
with whether it is converted. Where no transition is chosen the next pass tries again. Simplification: each pass has its own two random
numbers, the times and the end by a coincidence window are left out (`Model/FloatTime.lean`). -/
noncomputable def walk (fl : ℝ → ℝ) (lev : Scheme) : Nat → List (Pair × Pair) → List (Nat × Bool)
  | _, [] => []
  | i, w :: l =>
    if i = 0 then [] else
    match transition fl (normalizeBranch fl ((lev i).map (·.2))) w with
    | none => walk fl lev i l
    | some (j, b) => (j, b) :: walk fl lev (((lev i).map (·.1)).getD j 0) l

end CGMF.Pick

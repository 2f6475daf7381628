import Verif.Model.FloatPick
import Mathlib.Order.WithBot

/-!
# The time of a photon in double arithmetic

The time spent in a discrete level with a half-life (`mcGammaCascade`).
-/

namespace CGMF.Pick

open CGMF.Fp

variable (fl ln : ℝ → ℝ)

/-- `LOG_2` (include/physics.h:48). -/
noncomputable def log2 : ℝ := fl (6931471805599453 / 10 ^ 16)

/-- `-log(rng_cgm())*halflife / LOG_2` (specmc.cpp:557-559): `⊤` where the random number is zero and the logarithm infinite. The logarithm of
the library is the parameter `ln`. -/
noncomputable def delay (halflife : ℝ) (w : Pair) : WithTop ℝ :=
  if rng fl w = 0 then ⊤ else ((fl (fl (-ln (rng fl w) * halflife) / log2 fl) : ℝ) : WithTop ℝ)

/-- The time stamp after a level (specmc.cpp:557-559), starting from `t`. -/
noncomputable def stamp (halflife : ℝ) (t : WithTop ℝ) (w : Pair) : WithTop ℝ :=
  if 0 < halflife then (match t, delay fl ln halflife w with
    | some t, some d => ((fl (t + d) : ℝ) : WithTop ℝ)
    | _, _ => ⊤)
  else t

/-- The test that ends the cascade (specmc.cpp:560-561). -/
def late (window : ℝ) (t : WithTop ℝ) : Prop := 0 < window ∧ (window : WithTop ℝ) < t

end CGMF.Pick

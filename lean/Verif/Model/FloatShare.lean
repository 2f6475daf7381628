import Verif.Model.Float
import Verif.Model.Fragments

/-!
# Energy release and sharing of the excitation energy in floating-point arithmetic

FissionFragments.cpp `computeFragmentInitialConditions` (1444-1490), the options of `computeFragmentExcitationEnergy` with a ratio of
temperatures (1676-1735), `getLDP` (4582-4600) and the kinetic energies (1403-1409), with every operation rounded (Model/Float).  Over
exact numbers they are in Model/Fragments.  Mass excesses, separation energy, ratio of temperatures and total kinetic energy are
parameters: whatever numbers the code has.
-/

namespace CGMF.Fp

open CGMF.Frag (findEnergyIndex)

variable (fl : ℝ → ℝ)

/-- FissionFragments.cpp:1450: the energy released, from the mass excesses of the compound nucleus and the fragments. -/
def released (mc ml mh : ℝ) : ℝ := fl (fl (mc - ml) - mh)

/-- FissionFragments.cpp:1449, 1452: the total excitation energy. -/
def totalExc (q einc sn tke : ℝ) : ℝ := fl (fl (q + fl (einc + sn)) - tke)

/-- FissionFragments.cpp:1717: the energy of the heavy fragment; none if the denominator is zero. -/
noncomputable def heavyShare (rt txe al ah : ℝ) : Option ℝ := do
  let s ← fdiv fl ah (fl (fl (fl (al * rt) * rt) + ah))
  pure (fl (s * txe))

/-- FissionFragments.cpp:1715-1732: the loop, as `Frag.shareLoop`; the counter has no effect on the result. -/
noncomputable def shareLoop (ldpl ldph : ℝ → Res ℝ) (rt txe tol : ℝ) : Nat → ℝ → ℝ → Out (ℝ × ℝ)
  | 0, _, _ => .more
  | fuel + 1, al, ah =>
    match heavyShare fl rt txe al ah with
    | none => .ub
    | some eh =>
      match ldpl (fl (txe - eh)), ldph eh with
      | .ok al', .ok ah' =>
        if tol < |fl (al' - al)| then shareLoop ldpl ldph rt txe tol fuel al' ah' else .ok (fl (txe - eh), eh)
      | .exit, _ => .exit
      | .ub, _ => .ub
      | .ok _, .exit => .exit
      | .ok _, .ub => .ub

/-- FissionFragments.cpp:1702-1735: equal shares first, then the loop: energies of the light and the heavy fragment. -/
noncomputable def shareRT (ldpl ldph : ℝ → Res ℝ) (rt txe tol : ℝ) (fuel : Nat) : Out (ℝ × ℝ) :=
  match ldpl (fl (txe / 2)), ldph (fl (txe / 2)) with
  | .ok al, .ok ah => shareLoop fl ldpl ldph rt txe tol fuel al ah
  | .exit, _ => .exit
  | .ub, _ => .ub
  | .ok _, .exit => .exit
  | .ok _, .ub => .ub

/-- FissionFragments.cpp:1449-1461: both excitation energies; zero if the total is negative. -/
noncomputable def excite (ldpl ldph : ℝ → Res ℝ) (rt tol mc ml mh einc sn tke : ℝ) (fuel : Nat) : Out (ℝ × ℝ) :=
  let txe := totalExc fl (released fl mc ml mh) einc sn tke
  if txe < 0 then .ok (0, 0) else shareRT fl ldpl ldph rt txe tol fuel

/-- FissionFragments.cpp:4592-4597 `getLDP`: the interpolation on one row. -/
noncomputable def interp (grid row : List ℝ) (e : ℝ) : Res ℝ :=
  (readAt grid (findEnergyIndex e grid)).bind fun e1 =>
    (readAt grid (findEnergyIndex e grid + 1)).bind fun e2 =>
      (readAt row (findEnergyIndex e grid)).bind fun p1 =>
        (readAt row (findEnergyIndex e grid + 1)).bind fun p2 =>
          match fdiv fl (fl (p2 - p1)) (fl (e2 - e1)) with
          | none => .ub
          | some q => .ok (fl (fl (q * fl (e - e1)) + p1))

/-- FissionFragments.cpp:1408-1409: the kinetic energies of the light and the heavy fragment. -/
noncomputable def kinetic (tke ml mh : ℝ) : Option (ℝ × ℝ) := do
  let l ← fdiv fl (fl (tke * mh)) (fl (ml + mh))
  let h ← fdiv fl (fl (tke * ml)) (fl (ml + mh))
  pure (l, h)

end CGMF.Fp

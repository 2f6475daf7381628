import Verif.Model.Parser

/-!
# A file that ends too early

What a reader may return for a file that was cut at some character: the first fragments, the very last number of the
last one possibly wrong.
-/

namespace CGMF.Spec

open CGMF.Parser

/-- The list with the energy of the last particle replaced. -/
def lastEnergy (y : ℚ) : List Vec4 → List Vec4
  | [] => []
  | [v] => [{ v with e := y }]
  | v :: vs => v :: lastEnergy y vs

/-- The list with the last number replaced. -/
def lastNumber (y : ℚ) : List ℚ → List ℚ
  | [] => []
  | [_] => [y]
  | x :: xs => x :: lastNumber y xs

/-- The fragment with the last number of its record replaced: the energy of the last pre-fission neutron if there is
one, otherwise of the last photon (its age if ages are `timed`), otherwise of the last neutron, otherwise the last
component of the momentum. -/
def setLast (timed : Bool) (y : ℚ) (f : PyFrag) : PyFrag :=
  if 0 < f.npn then { f with pren := lastEnergy y f.pren }
  else if 0 < f.ng then
    if timed then { f with ages := lastNumber y f.ages } else { f with phot := lastEnergy y f.phot }
  else if 0 < f.nn then { f with lab := lastEnergy y f.lab }
  else { f with post := (f.post.1, f.post.2.1, y) }

/-- `fs` are the first fragments of `full`, the last number of the last of them possibly replaced. -/
def FirstOf (timed : Bool) (fs full : List PyFrag) : Prop :=
  ∃ n, fs = full.take n ∨ ∃ g y, full[n]? = some g ∧ fs = full.take n ++ [setLast timed y g]

/-- `rows` are the first rows of `full`, the last number of the last possibly replaced. -/
def FirstRows (rows full : List (List ℚ)) : Prop :=
  ∃ n, rows = full.take n ∨ ∃ g y, full[n]? = some g ∧ rows = full.take n ++ [lastNumber y g]

end CGMF.Spec

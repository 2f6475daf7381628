import Verif.Model.Prefission

/-! # Vocabulary of the pre-fission statements -/

namespace CGMF.Spec

open CGMF.Pre

variable {K : Type} [Field K] [LinearOrder K] [FloorRing K]

/-- A block of multi-chance data: as many rows as energies, `nn+1` non-negative entries per row, at least
one energy. -/
structure BlockOK (c : Chance K) : Prop where
  rows : c.pf.length = c.energies.length
  cols : ∀ r ∈ c.pf, r.length = c.nn + 1
  nonneg : ∀ r ∈ c.pf, ∀ p ∈ r, 0 ≤ p

/-- `v` is the linear interpolation at `e` between the tabulated values of `j` neutrons at the two
neighbouring energies. -/
def Interpolated (c : Chance K) (e : K) (j : Nat) (v : K) : Prop :=
  ∃ (i : Nat) (e0 e1 p0 p1 : K) (r0 r1 : List K), c.energies[i]? = some e0 ∧ c.energies[i + 1]? = some e1 ∧
    e0 < e ∧ e ≤ e1 ∧ c.pf[i]? = some r0 ∧ c.pf[i + 1]? = some r1 ∧ r0[j]? = some p0 ∧ r1[j]? = some p1 ∧
    v * (e1 - e0) = p0 * (e1 - e) + p1 * (e - e0)

/-- The chain of nuclei with the common energy grid: nucleus `i` starts at `E i`, bin `k` has energy
`E i - k*w` as long as this is at least `w/2` and 0 otherwise; `E (i+1)` is `E i` minus the separation
energy; the `N` bins cover `E 0`. -/
structure Chained (y : Sys K) (n N : Nat) (E : Nat → K) : Prop where
  wpos : 0 < y.w
  bins : ∀ i ≤ n, y.exc[i]? = some ((List.range N).map fun k : Nat =>
    if ((k : K) + 1 / 2) * y.w ≤ E i then E i - k * y.w else 0)
  sep : ∀ i < n, ∃ q, y.sep[i]? = some q ∧ 0 ≤ q ∧ E (i + 1) = E i - q
  cover : E 0 ≤ (N : K) * y.w
  first : y.sp1.length = N
  later : ∀ i k, (y.sp i k).length = N

end CGMF.Spec

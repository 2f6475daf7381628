import Verif.Spec.Widths
import Verif.Spec.Law
import Verif.Spec.Cascade

/-!
# Energies inside the bins of a decay step

A continuum state stands for the energies between the midpoints to its neighbours, above the highest discrete level.
-/

namespace CGMF.HF

open CGMF.MC CGMF.Grid CGMF.Law

/-- Upper end of bin `k`; the first bin ends at its own energy. -/
noncomputable def binTop (m : Mesh ℝ) (k : Nat) : ℝ := if k = 0 then m.exc 0 else (m.exc (k - 1) + m.exc k) / 2

/-- Lower end of bin `k`, not below the highest discrete level. -/
noncomputable def binBottom (m : Mesh ℝ) (top : ℝ) (k : Nat) : ℝ := max ((m.exc (k + 1) + m.exc k) / 2) top

/-- Probability that a number uniform between `lo` and `hi` lies in `S`. -/
noncomputable def inBin (lo hi : ℝ) (S : Set ℝ) : ℝ := (unif {r | lo + (hi - lo) * r ∈ S}).toReal

open Classical in
/-- Probability that the final energy lies in `S`, once a state of a nucleus with the given levels is selected. -/
noncomputable def energyIn (levels : List (Level ℝ)) (m : Mesh ℝ) (top : ℝ) (S : Set ℝ) : Cell → ℝ
  | .cont k _ _ => inBin (binBottom m top k) (binTop m k) S
  | .disc i => if ∃ l, levels[i]? = some l ∧ l.energy ∈ S then 1 else 0

/-- Level `i` is the first of those whose spin is closest to `J` (doubled; less than 100 units away). -/
def FirstClosest (levels : List (Level ℝ)) (J : Int) (i : Nat) : Prop :=
  ∃ l, levels[i]? = some l ∧ |l.spin2 - J| < 200 ∧ (∀ l' ∈ levels, |l.spin2 - J| ≤ |l'.spin2 - J|) ∧
    ∀ k l', k < i → levels[k]? = some l' → |l.spin2 - J| < |l'.spin2 - J|

open Classical in
/-- Probability that a transition forced from a state of (doubled) spin `J` and parity `p` ends on level `i`: the preferred
levels are equally probable; without any the first closest level is taken. -/
noncomputable def forcedTo (levels : List (Level ℝ)) (p J : Int) (i : Nat) : ℝ :=
  if ∃ l ∈ levels, Preferred l J p then
    if ∃ l, levels[i]? = some l ∧ Preferred l J p then 1 / (levels.countP fun l => Preferred l J p) else 0
  else if FirstClosest levels J i then 1 else 0

open Classical in
/-- One if the point of level `i` of nucleus `c` satisfies `Q`, zero otherwise. -/
noncomputable def atLevel (levels : List (Level ℝ)) (c : Nat) (Q : MCPoint ℝ → Prop) (i : Nat) : ℝ :=
  if ∃ l, levels[i]? = some l ∧ Q ⟨c, l.parity, 0, i, l.energy, true⟩ then 1 else 0

/-- Probability that a pass which selected the given state (of the daughter nucleus if the flag is set) ends in a point that
satisfies `Q`.  A level is kept; a continuum state takes an energy uniform in its bin.  If it then lies in the decaying
nucleus and less than `cut` above the highest level, the transition is forced to a level. -/
noncomputable def chance (cut : ℝ) (m : MCPoint ℝ) (n0 n1 : Nuc ℝ) (m0 m1 : Mesh ℝ) (top0 top1 : ℝ) (Q : MCPoint ℝ → Prop) :
    Bool × Cell → ℝ
  | (false, .disc i) => atLevel n0.levels m.n Q i
  | (true, .disc i) => atLevel n1.levels n0.next Q i
  | (true, .cont k j even) =>
    inBin (binBottom m1 top1 k) (binTop m1 k) {e | Q ⟨n0.next, if even then 1 else -1, j, k, e, false⟩}
  | (false, .cont k j even) =>
    inBin (binBottom m0 top0 k) (binTop m0 k) {e | top0 + cut ≤ e ∧ Q ⟨m.n, if even then 1 else -1, j, k, e, false⟩} +
    inBin (binBottom m0 top0 k) (binTop m0 k) {e | e < top0 + cut} *
      ∑ i ∈ Finset.range n0.levels.length, forcedTo n0.levels m.p (2 * m.j) i * atLevel n0.levels m.n Q i

/-- A pass of the continuum loop from the point `m`: nucleus `n0` on the grid `m0`, its daughter `n1` on the grid `m1` (any
nucleus and grid if the neutron channel is closed), and some open channel. -/
structure Pass (par : Par ℝ) (st : St ℝ) (m : MCPoint ℝ) (n0 n1 : Nuc ℝ) (m0 m1 : Mesh ℝ) : Prop where
  spins : 0 < par.maxJ
  width : 0 ≤ par.w
  parent : par.chain[m.n]? = some n0
  grid0 : setup par.w par.nbin (elmax n0.levels) m.e = .ok m0
  daughter : n0.status = true → par.chain[n0.next]? = some n1 ∧ setup par.w par.nbin (elmax n1.levels) (m.e - n0.sn) = .ok m1
  other : m.n ≠ n0.next
  levels0 : n0.levels ≠ []
  levels1 : n1.levels ≠ []
  spin : 0 ≤ m.j ∧ m.j < (par.maxJ : Int)
  phys : PhysNonneg (par.phys m.n m.e)
  fits : Fits n0 n1 m.p
  room : st.hs.length + 1 < par.cap
  width_ne : photonWidth par.maxJ par.w n0 n1 m0 m1 (par.phys m.n m.e) m.p m.j +
    neutronWidth par.maxJ par.w n0 n1 m0 m1 (par.phys m.n m.e) m.p m.j ≠ 0

/-- Mean of `F` over the states a pass selects, each weighted with its transmission. -/
noncomputable def meanOver (par : Par ℝ) (m : MCPoint ℝ) (n0 n1 : Nuc ℝ) (m0 m1 : Mesh ℝ) (F : Bool × Cell → ℝ) : ℝ :=
  (sumStates par.maxJ 1 m0.ncont n0.levels.length (fun c =>
      strength par.maxJ par.w n0 n1 m0 m1 (par.phys m.n m.e) m.p m.j (false, c) * F (false, c)) +
    sumStates par.maxJ 0 m1.ncont n1.levels.length (fun c =>
      strength par.maxJ par.w n0 n1 m0 m1 (par.phys m.n m.e) m.p m.j (true, c) * F (true, c))) /
  (photonWidth par.maxJ par.w n0 n1 m0 m1 (par.phys m.n m.e) m.p m.j +
    neutronWidth par.maxJ par.w n0 n1 m0 m1 (par.phys m.n m.e) m.p m.j)

/-- Chance that the photon of a pass has an energy in `S`, once a state of the decaying nucleus is selected. -/
noncomputable def photonIn (cut : ℝ) (m : MCPoint ℝ) (levels : List (Level ℝ)) (m0 : Mesh ℝ) (top : ℝ) (S : Set ℝ) : Cell → ℝ
  | .disc i => energyIn levels m0 top {e | m.e - e ∈ S} (.disc i)
  | .cont k _ _ => inBin (binBottom m0 top k) (binTop m0 k) {e | top + cut ≤ e ∧ m.e - e ∈ S} +
      inBin (binBottom m0 top k) (binTop m0 k) {e | e < top + cut} *
        ∑ i ∈ Finset.range levels.length, forcedTo levels m.p (2 * m.j) i * energyIn levels m0 top {e | m.e - e ∈ S} (.disc i)

/-- Chance that a pass ends on level `i` of the decaying nucleus, once a state of that nucleus is selected. -/
noncomputable def levelIn (cut : ℝ) (m : MCPoint ℝ) (levels : List (Level ℝ)) (m0 : Mesh ℝ) (top : ℝ) (i : Nat) : Cell → ℝ
  | .disc i' => if i' = i then 1 else 0
  | .cont k _ _ => inBin (binBottom m0 top k) (binTop m0 k) {e | e < top + cut} * forcedTo levels m.p (2 * m.j) i

end CGMF.HF

import Verif.Proofs.SpinPar
import Verif.Proofs.OneDraw
import Verif.Props.Law
import Verif.Props.Sampling
import Mathlib.Analysis.SpecialFunctions.Pow.Real
import Mathlib.Algebra.Order.Ring.Rat
import Mathlib.Data.Rat.Floor

/-!
# C108: the spin parameter, and the joint law of the spins and parities of a pair
-/

namespace CGMF.Props

open MeasureTheory CGMF.Law CGMF.Frag CGMF.Pre

section Generic

variable {K : Type} [Field K] [LinearOrder K] [FloorRing K] [IsStrictOrderedRing K]

/-- **C108.** For a nucleus inside the tables and an energy inside the grid, the spin parameter is defined, positive, and
`I T / (ħc)²`: `I` the moment of inertia of a rigid ellipsoid of deformation `β` (the entry of the table, or 0.2 when it
is missing) times the spin-scaling factor, `T` a temperature between the neighbouring entries of the row (5 MeV when
the row is missing). -/
theorem C108_parameter (k : Phys K) (alpha : K) (hal : 0 < alpha) (hmn : 0 < k.mn) (hmp : 0 < k.mp) (hamu : 0 < k.amu)
    (hh : 0 < k.hbarc) (t : Tables K) (A Z : Int) (hpow : 0 < k.pow53 A) (h0 : 0 ≤ 1000 * Z + A) (x : K) (row : List K)
    (hb : t.beta[(1000 * Z + A).toNat]? = some x) (ht : t.temp[(1000 * Z + A).toNat]? = some row)
    (hrow : row.head? = some 0 ∨ ∀ v ∈ row, 0 < v) (hlen : t.grid.length ≤ row.length) (U : K)
    (hU0 : ∀ g ∈ t.grid.head?, g ≤ U) (hU1 : ∃ g ∈ t.grid, U < g) :
    ∃ (b : K) (T : K) (B : K) (t' : Tables K), spinParameter2 k alpha t U A Z = .ok (B, t') ∧ 0 < T ∧ 0 < B ∧
      B = 2 / 5 * k.pow53 A * (6 / 5) ^ 2 * ((k.mn + k.mp) / 2 * k.amu) * (1 + 31 / 100 * b + 44 / 100 * b ^ 2) * alpha * T
        / k.hbarc ^ 2 ∧
      (x = -100 → b = 1 / 5) ∧ (x ≠ -100 → b = x) ∧
      (row.head? = some 0 → T = 5) ∧
      (row.head? ≠ some 0 → ∃ (i : Nat) (e1 e2 t1 t2 : K), t.grid[i]? = some e1 ∧ t.grid[i + 1]? = some e2 ∧
        row[i]? = some t1 ∧ row[i + 1]? = some t2 ∧ e1 ≤ U ∧ U < e2 ∧ min t1 t2 ≤ T ∧ T ≤ max t1 t2) := by
  obtain ⟨b', t', _, _, e⟩ := spinParameter2_in k alpha (U := U) h0 hb ht
  have hlen' : t.grid.length ≤ (rowOf 5 row).length := by unfold rowOf; split <;> simp [hlen]
  obtain ⟨i, e1, e2, t1, t2, T, g1, g2, r1, r2, le1, lt2, ev, lo, hi, _⟩ := C53_inside t.grid (rowOf 5 row) hlen' U hU0 hU1
  have hpos : ∀ v ∈ rowOf 5 row, 0 < v := by
    intro v hv
    unfold rowOf at hv
    split at hv
    · rw [List.eq_of_mem_replicate hv]; norm_num
    · next hn => exact (hrow.resolve_left hn) v hv
  have hT : 0 < T := lt_of_lt_of_le (lt_min (hpos _ (List.mem_of_getElem? r1)) (hpos _ (List.mem_of_getElem? r2))) lo
  have hI : 0 < inertia k alpha (betaOf x) A := by
    unfold inertia
    have := shape_pos (betaOf x)
    have := add_pos hmn hmp
    positivity
  rw [ev] at e
  refine ⟨betaOf x, T, _, _, e, hT, by positivity, ?_, ?_, ?_, ?_, ?_⟩
  · unfold inertia
    have := hh.ne'
    field_simp
    ring
  · intro h; simp [betaOf, h]
  · intro h; simp [betaOf, h]
  · intro h
    have h5 : ∀ (j : Nat) (v : K), (rowOf 5 row)[j]? = some v → v = 5 := by
      intro j v hv
      unfold rowOf at hv
      rw [if_pos h] at hv
      exact List.eq_of_mem_replicate (List.mem_of_getElem? hv)
    rw [h5 _ _ r1, h5 _ _ r2] at lo hi
    simp only [min_self, max_self] at lo hi
    exact le_antisymm hi lo
  · intro h
    unfold rowOf at r1 r2
    rw [if_neg h] at r1 r2
    exact ⟨i, e1, e2, t1, t2, g1, g2, r1, r2, le1, lt2, lo, hi⟩

/-- **C108.** The defaults stored by earlier requests change nothing: after any history of requests (of any
nucleus, at any energy and spin-scaling factor) a request returns what it would have returned first. -/
theorem C108_history (k : Phys K) (qs : List (Ask K)) (t t' : Tables K) (h : asked k qs t = .ok t') (alpha U : K)
    (A Z : Int) : spinParameter k alpha t' U A Z = spinParameter k alpha t U A Z :=
  spinParameter_rel k alpha (asked_rel k qs t t' h) U A Z

end Generic

/-- A stand-in with rational constants. -/
def spPhys : Phys ℚ := ⟨1, 1, 930, 200, fun A => A * A⟩

/-- Five nuclei (0 to 4), one missing in both tables. -/
def spTabs : Tables ℚ := ⟨[0, 1 / 10, -100, -1 / 5, 3 / 10], [0, 1, 5], [[1, 1, 2], [1, 2, 3], [0, 0, 0], [2, 2, 2], [1, 1, 1]]⟩

/-- A missing nucleus takes the defaults and leaves them in the tables; the second request then finds them. -/
example : (∃ B t', spinParameter2 spPhys 1 spTabs 2 2 0 = .ok (B, t') ∧ t'.beta[2]? = some (1 / 5) ∧ t'.temp[2]? = some [5, 5, 5]
    ∧ spinParameter2 spPhys 1 t' 2 2 0 = .ok (B, t')) := by
  refine ⟨_, _, rfl, ?_⟩
  decide +kernel

example : ∃ t', asked spPhys [⟨1, 2, 2, 0⟩, ⟨2, 3, 1, 0⟩, ⟨1, 0, 2, 0⟩] spTabs = .ok t' ∧ t' ≠ spTabs ∧
    spinParameter spPhys 2 t' 2 2 0 = spinParameter spPhys 2 spTabs 2 2 0 := by
  refine ⟨⟨[0, 1 / 10, 1 / 5, -1 / 5, 3 / 10], [0, 1, 5], [[1, 1, 2], [1, 2, 3], [5, 5, 5], [2, 2, 2], [1, 1, 1]]⟩, ?_⟩
  decide +kernel

example : ∃ (b : ℚ) (T : ℚ) (B : ℚ) (t' : Tables ℚ), spinParameter2 spPhys 1 spTabs 2 2 0 = .ok (B, t') ∧ 0 < B ∧ b = 1 / 5 ∧ T = 5 := by
  obtain ⟨b, T, B, t', h1, _, h3, _, h5, _, h7, _⟩ := C108_parameter spPhys 1 (by norm_num) (by norm_num [spPhys])
    (by norm_num [spPhys]) (by norm_num [spPhys]) (by norm_num [spPhys]) spTabs 2 0 (by norm_num [spPhys]) (by norm_num)
    (-100) [0, 0, 0] (by decide +kernel) (by decide +kernel) (Or.inl rfl) (by decide +kernel) 2
    (by intro g hg; simp only [spTabs, List.head?_cons, Option.mem_def, Option.some.injEq] at hg; rw [← hg]; norm_num)
    ⟨5, by simp [spTabs], by norm_num⟩
  exact ⟨b, T, B, t', h1, h3, h5 rfl, h7 rfl⟩

/-! ### The spin-scaling factor -/

/-- Weight of the spin `J`. -/
noncomputable def spinW (J : Nat → ℝ) (B : ℝ) (k : Nat) : ℝ := (2 * J k + 1) * Real.exp (-(J k * (J k + 1)) / (2 * B))

theorem spinW_cross {J : Nat → ℝ} (hJ0 : ∀ k, 0 ≤ J k) (hJm : ∀ i k, i < k → J i < J k) {B B' : ℝ} (hB : 0 < B) (hBB : B < B')
    {i k : Nat} (h : i < k) : spinW J B k * spinW J B' i < spinW J B' k * spinW J B i := by
  unfold spinW
  have hi := hJ0 i
  have hk := hJ0 k
  have e1 : (2 * J k + 1) * Real.exp (-(J k * (J k + 1)) / (2 * B)) * ((2 * J i + 1) * Real.exp (-(J i * (J i + 1)) / (2 * B')))
      = (2 * J k + 1) * (2 * J i + 1) * Real.exp (-(J k * (J k + 1)) / (2 * B) + -(J i * (J i + 1)) / (2 * B')) := by
    rw [Real.exp_add]; ring
  have e2 : (2 * J k + 1) * Real.exp (-(J k * (J k + 1)) / (2 * B')) * ((2 * J i + 1) * Real.exp (-(J i * (J i + 1)) / (2 * B)))
      = (2 * J k + 1) * (2 * J i + 1) * Real.exp (-(J k * (J k + 1)) / (2 * B') + -(J i * (J i + 1)) / (2 * B)) := by
    rw [Real.exp_add]; ring
  rw [e1, e2]
  apply mul_lt_mul_of_pos_left _ (by positivity)
  rw [Real.exp_lt_exp]
  have hx : J i * (J i + 1) < J k * (J k + 1) := by nlinarith [hJm i k h]
  have hinv : 1 / (2 * B') < 1 / (2 * B) := one_div_lt_one_div_of_lt (by linarith) (by linarith)
  have : 0 < (J k * (J k + 1) - J i * (J i + 1)) * (1 / (2 * B) - 1 / (2 * B')) := mul_pos (by linarith) (by linarith)
  have q1 : -(J k * (J k + 1)) / (2 * B) = -(J k * (J k + 1)) * (1 / (2 * B)) := by ring
  have q2 : -(J k * (J k + 1)) / (2 * B') = -(J k * (J k + 1)) * (1 / (2 * B')) := by ring
  have q3 : -(J i * (J i + 1)) / (2 * B) = -(J i * (J i + 1)) * (1 / (2 * B)) := by ring
  have q4 : -(J i * (J i + 1)) / (2 * B') = -(J i * (J i + 1)) * (1 / (2 * B')) := by ring
  rw [q1, q2, q3, q4]
  nlinarith

theorem spin_tail {J : Nat → ℝ} (hJ0 : ∀ k, 0 ≤ J k) (hJm : ∀ i k, i < k → J i < J k) {B B' : ℝ} (hB : 0 < B) (hBB : B < B')
    {n nj : Nat} (hn : 0 < n) (hnj : n < nj) :
    ∑ k ∈ Finset.Ico n nj, spinW J B k / ∑ i ∈ Finset.range nj, spinW J B i
      < ∑ k ∈ Finset.Ico n nj, spinW J B' k / ∑ i ∈ Finset.range nj, spinW J B' i := by
  have hp : ∀ C k, 0 < spinW J C k := fun C k => by
    unfold spinW; have := hJ0 k; positivity
  rw [← Finset.sum_div, ← Finset.sum_div]
  have split : ∀ C, ∑ i ∈ Finset.range nj, spinW J C i = ∑ i ∈ Finset.range n, spinW J C i + ∑ k ∈ Finset.Ico n nj, spinW J C k :=
    fun C => (Finset.sum_range_add_sum_Ico _ hnj.le).symm
  have hS : ∀ C, 0 < ∑ i ∈ Finset.range nj, spinW J C i := fun C =>
    Finset.sum_pos (fun i _ => hp C i) ⟨0, Finset.mem_range.mpr (by omega)⟩
  rw [div_lt_div_iff₀ (hS _) (hS _), split B, split B', mul_add, mul_add]
  have key : (∑ k ∈ Finset.Ico n nj, spinW J B k) * ∑ i ∈ Finset.range n, spinW J B' i
      < (∑ k ∈ Finset.Ico n nj, spinW J B' k) * ∑ i ∈ Finset.range n, spinW J B i := by
    rw [Finset.sum_mul_sum, Finset.sum_mul_sum]
    apply Finset.sum_lt_sum_of_nonempty ⟨n, Finset.mem_Ico.mpr ⟨le_refl n, hnj⟩⟩
    intro k hk
    apply Finset.sum_lt_sum_of_nonempty ⟨0, Finset.mem_range.mpr hn⟩
    intro i hi
    exact spinW_cross hJ0 hJm hB hBB (by have := Finset.mem_Ico.mp hk; have := Finset.mem_range.mp hi; omega)
  nlinarith

/-- **C108.** A larger spin-scaling factor gives larger spins: for the same nucleus and energy, the probability that
the initial spin is at least any given value strictly increases with `alphaI`. -/
theorem C108_scaling (k : Phys ℝ) (alpha alpha' : ℝ) (hal : 0 < alpha) (hlt : alpha < alpha') (t : Tables ℝ) (U : ℝ)
    (A Z : Int) (B B' : ℝ) (h : spinParameter k alpha t U A Z = .ok B) (h' : spinParameter k alpha' t U A Z = .ok B')
    (hB : 0 < B) (nj n : Nat) (hn : 0 < n) (hnj : n < nj) (J : Nat → ℝ)
    (hJ : ∀ k, J k = if A % 2 = 0 then (k : ℝ) else (k : ℝ) + 1 / 2) :
    ∑ i ∈ Finset.Ico n nj, prob (spin Real.exp nj A B) (J i) < ∑ i ∈ Finset.Ico n nj, prob (spin Real.exp nj A B') (J i) := by
  have hBB : B < B' := by
    unfold spinParameter at h h'
    by_cases hin : 1000 * Z + A < 0 ∨ t.beta.length ≤ (1000 * Z + A).toNat ∨ t.temp.length ≤ (1000 * Z + A).toNat
    · rw [spinParameter2_out k alpha hin] at h; cases h
    · push Not at hin
      obtain ⟨b1, t1, _, _, e1⟩ := spinParameter2_in k alpha (U := U) hin.1 (List.getElem?_eq_getElem hin.2.1)
        (List.getElem?_eq_getElem hin.2.2)
      obtain ⟨b2, t2, _, _, e2⟩ := spinParameter2_in k alpha' (U := U) hin.1 (List.getElem?_eq_getElem hin.2.1)
        (List.getElem?_eq_getElem hin.2.2)
      rw [e1] at h
      rw [e2] at h'
      cases hv : interpRow t.grid (rowOf 5 t.temp[(1000 * Z + A).toNat]) U with
      | ok v =>
        rw [hv] at h h'
        simp only [Res.bind, Res.ok.injEq] at h h'
        have e : B' = B * (alpha' / alpha) := by
          rw [← h, ← h']
          unfold inertia
          have := hal.ne'
          field_simp
        rw [e]
        have : 1 < alpha' / alpha := (one_lt_div hal).mpr hlt
        nlinarith
      | exit => rw [hv] at h; cases h
      | ub => rw [hv] at h; cases h
  have hJ0 : ∀ i, 0 ≤ J i := fun i => by rw [hJ]; split <;> positivity
  have hJm : ∀ i k, i < k → J i < J k := fun i k hik => by
    rw [hJ, hJ]
    have : (i : ℝ) < k := by exact_mod_cast hik
    split <;> linarith
  have hp : ∀ C k, 0 ≤ spinW J C k := fun C k => by unfold spinW; have := hJ0 k; positivity
  have conv : ∀ C : ℝ, C ≠ 0 → ∑ i ∈ Finset.Ico n nj, prob (spin Real.exp nj A C) (J i)
      = ENNReal.ofReal (∑ i ∈ Finset.Ico n nj, spinW J C i / ∑ l ∈ Finset.range nj, spinW J C l) := by
    intro C hC
    rw [ENNReal.ofReal_sum_of_nonneg fun i _ => div_nonneg (hp C i) (Finset.sum_nonneg fun l _ => hp C l)]
    refine Finset.sum_congr rfl fun i hi => ?_
    rw [C85_spin nj (by omega) A C hC i (Finset.mem_Ico.mp hi).2 J hJ]
    rfl
  rw [conv B hB.ne', conv B' (hB.trans hBB).ne']
  refine (ENNReal.ofReal_lt_ofReal_iff_of_nonneg ?_).mpr (spin_tail hJ0 hJm hB hBB hn hnj)
  exact Finset.sum_nonneg fun i _ => div_nonneg (hp B i) (Finset.sum_nonneg fun l _ => hp B l)

/-- The constants of physics.h. -/
noncomputable def spReal : Phys ℝ := ⟨1.00866491578, 1.00727646688, 931.494013, 197.326960, fun A => (A : ℝ) ^ (5 / 3 : ℝ)⟩

/-- A nucleus of mass number 3 with its tables: the spin distributions for the factors 1 and 3/2. -/
example : ∃ B B' : ℝ, spinParameter spReal 1 ⟨[0, 0, 0, 1 / 10], [0, 1], [[], [], [], [1, 2]]⟩ (1 / 2) 3 0 = .ok B ∧
    spinParameter spReal (3 / 2) ⟨[0, 0, 0, 1 / 10], [0, 1], [[], [], [], [1, 2]]⟩ (1 / 2) 3 0 = .ok B' ∧
    ∑ i ∈ Finset.Ico (4 : Nat) 50, prob (spin Real.exp 50 3 B) ((i : ℝ) + 1 / 2) <
      ∑ i ∈ Finset.Ico (4 : Nat) 50, prob (spin Real.exp 50 3 B') ((i : ℝ) + 1 / 2) := by
  have key : ∀ al : ℝ, 0 < al → ∃ B, spinParameter spReal al ⟨[0, 0, 0, 1 / 10], [0, 1], [[], [], [], [1, 2]]⟩ (1 / 2) 3 0 = .ok B ∧ 0 < B := by
    intro al hal
    obtain ⟨b, T, B, t', h1, _, h3, _⟩ := C108_parameter spReal al hal (by norm_num [spReal]) (by norm_num [spReal])
      (by norm_num [spReal]) (by norm_num [spReal]) ⟨[0, 0, 0, 1 / 10], [0, 1], [[], [], [], [1, 2]]⟩ 3 0
      (by simp only [spReal]; positivity) (by norm_num) (1 / 10) [1, 2] rfl rfl (Or.inr (by intro v hv; simp at hv; rcases hv with rfl | rfl <;> norm_num))
      (by simp) (1 / 2) (by intro g hg; simp at hg; rw [← hg]; norm_num) ⟨1, by simp, by norm_num⟩
    exact ⟨B, by unfold spinParameter; rw [h1]; rfl, h3⟩
  obtain ⟨B, hB, hB0⟩ := key 1 (by norm_num)
  obtain ⟨B', hB', _⟩ := key (3 / 2) (by norm_num)
  exact ⟨B, B', hB, hB', C108_scaling spReal 1 (3 / 2) (by norm_num) (by norm_num) _ _ 3 0 B B' hB hB' hB0 50 4 (by norm_num)
    (by norm_num) (fun k => (k : ℝ) + 1 / 2) (fun k => by norm_num)⟩

/-! ### Joint law of a pair -/

theorem parity_one : (parity : Rnd ℝ Int) = one fun r => if r < 1 / 2 then -1 else 1 := rfl

theorem measurable_parity (p : Int) : MeasurableSet {r : ℝ | (if r < 1 / 2 then (-1 : Int) else 1) = p} := by
  have : Measurable fun r : ℝ => if r < 1 / 2 then (-1 : Int) else 1 :=
    Measurable.ite (measurableSet_Iio (a := (1 / 2 : ℝ))) measurable_const measurable_const
  exact this (measurableSet_singleton p)

theorem prob_parity (p : Int) (hp : p = 1 ∨ p = -1) : prob (parity : Rnd ℝ Int) p = ENNReal.ofReal (1 / 2) := by
  rw [parity_one, prob_one _ _ (measurable_parity p)]
  rcases hp with rfl | rfl
  · have : {r : ℝ | (if r < 1 / 2 then (-1 : Int) else 1) = 1} = {r | 1 / 2 ≤ r} := by
      ext r
      simp only [Set.mem_ofPred_eq]
      split
      · next h => constructor
                  · intro h'; norm_num at h'
                  · intro h'; linarith
      · next h => exact ⟨fun _ => not_lt.mp h, fun _ => rfl⟩
    rw [this, unif_Ici (by norm_num) (by norm_num)]
    norm_num
  · have : {r : ℝ | (if r < 1 / 2 then (-1 : Int) else 1) = -1} = {r | r < 1 / 2} := by
      ext r
      simp only [Set.mem_ofPred_eq]
      split
      · next h => exact ⟨fun _ => h, fun _ => rfl⟩
      · next h => constructor
                  · intro h'; norm_num at h'
                  · intro h'; exact absurd h' h
    rw [this, unif_Iio (by norm_num) (by norm_num)]

/-- The spin of a fragment comes from one index. -/
theorem spin_index {nj : Nat} (A : Int) {B2 : ℝ} (hB : B2 ≠ 0) : (spin Real.exp nj A B2 : Rnd ℝ ℝ)
    = (pickSpin nj (spinProb Real.exp nj A B2) >>= fun j => pure (spinOf A j)) := by
  unfold spin
  rw [if_neg hB]

theorem spinOf_inj (A : Int) {i k : Nat} (h : (spinOf A i : ℝ) = spinOf A k) : i = k := by
  unfold spinOf at h
  split at h
  · exact_mod_cast h
  · rw [add_left_inj] at h
    exact_mod_cast h

theorem local_pickSpin (nj : Nat) (ps : List ℝ) : Local (pickSpin nj ps) :=
  local_loop (loop_pickSpin nj ps) fun k => local_pure k.toNat

theorem meas_pickSpin (nj : Nat) (ps : List ℝ) : Meas (pickSpin nj ps) :=
  meas_loop (loop_pickSpin nj ps) fun k => meas_pure k.toNat

theorem prob_index (nj : Nat) (A : Int) {B2 : ℝ} (hB : B2 ≠ 0) (j : Nat) :
    prob (pickSpin nj (spinProb Real.exp nj A B2)) j = prob (spin Real.exp nj A B2) (spinOf A j) := by
  rw [spin_index A hB, prob_bind (local_pickSpin _ _) (meas_pickSpin _ _) (fun _ => meas_pure _), tsum_eq_single j]
  · rw [prob_pure_self, mul_one]
  · intro k hk
    rw [prob_pure_ne (fun h => hk (spinOf_inj A h)), mul_zero]

theorem local_parity : Local (parity : Rnd ℝ Int) := local_one _
theorem meas_parity : Meas (parity : Rnd ℝ Int) := meas_one _ measurable_parity

/-- Two parities and what is made of them. -/
theorem prob_parities {β : Type} (f : Int → Int → β) (hf : ∀ a b a' b', f a b = f a' b' → a = a' ∧ b = b') (a b : Int)
    (ha : a = 1 ∨ a = -1) (hb : b = 1 ∨ b = -1) :
    prob ((parity : Rnd ℝ Int) >>= fun x => parity >>= fun y => pure (f x y)) (f a b) = ENNReal.ofReal (1 / 4) := by
  rw [prob_bind local_parity meas_parity (fun _ => meas_bind local_parity meas_parity fun _ => meas_pure _),
    tsum_eq_single a]
  · rw [prob_bind local_parity meas_parity (fun _ => meas_pure _), tsum_eq_single b]
    · rw [prob_parity a ha, prob_parity b hb, prob_pure_self, mul_one, ← ENNReal.ofReal_mul (by norm_num)]
      norm_num
    · intro y hy
      rw [prob_pure_ne (fun h => hy (hf _ _ _ _ h).2), mul_zero]
  · intro x hx
    rw [prob_bind local_parity meas_parity (fun _ => meas_pure _)]
    have : ∀ y, prob (parity : Rnd ℝ Int) y * prob (pure (f x y)) (f a b) = 0 := fun y => by
      rw [prob_pure_ne (fun h => hx (hf _ _ _ _ h).1), mul_zero]
    rw [tsum_congr this, tsum_zero, mul_zero]

/-- The random part of `excite`. -/
theorem excite_eq {M : Type} (v : Env ℝ M) (hexp : v.exp = Real.exp) (fuel : Nat) (p : Pair) (txe q : ℝ) (htxe : 0 ≤ txe)
    (u : ℝ × ℝ) (hs : share v.ldp v.tol v.opt fuel p txe = .ok u) (bl bh : ℝ) (hl : v.b2 p.zl p.al u.1 = .ok bl)
    (hh : v.b2 p.zh p.ah u.2 = .ok bh) (hl0 : bl ≠ 0) (hh0 : bh ≠ 0) :
    excite v fuel p txe q = (pickSpin v.nj (spinProb Real.exp v.nj p.al bl) >>= fun i =>
      pickSpin v.nj (spinProb Real.exp v.nj p.ah bh) >>= fun j => parity >>= fun a => parity >>= fun b =>
        pure ⟨u.1, u.2, some (spinOf p.al i, spinOf p.ah j, a, b), q⟩) := by
  have e1 : ∀ {α β : Type} (x : α) (f : α → Rnd ℝ β), (Rnd.lift (.ok x) >>= f) = f x := fun _ _ => rfl
  have e2 : ∀ {α β : Type} (x : α) (f : α → Rnd ℝ β), (liftOut (.ok x) >>= f) = f x := fun _ _ => rfl
  have e3 : ∀ {α β γ : Type} (x : Rnd ℝ α) (f : α → β) (g : β → Rnd ℝ γ),
      ((x >>= fun a => pure (f a)) >>= g) = x >>= fun a => g (f a) := by
    intro α β γ x f g
    funext s
    rw [Rnd.bind_run, Rnd.bind_run, Rnd.bind_run]
    cases x s <;> rfl
  unfold excite
  rw [if_neg (not_lt.mpr htxe), hs, e2, hl, e1, hexp, spin_index p.al hl0, e3]
  simp only [hh, e1, spin_index p.ah hh0, e3]

/-- **C108.** When the total excitation energy of a pair is not negative, the spins and parities of its two fragments
are independent: each spin has the distribution of its own mass number and spin parameter, each of the four pairs of
parities has probability 1/4. -/
theorem C108_joint {M : Type} (v : Env ℝ M) (hexp : v.exp = Real.exp) (hnj : 0 < v.nj) (fuel : Nat) (p : Pair) (txe q : ℝ)
    (htxe : 0 ≤ txe) (u : ℝ × ℝ) (hs : share v.ldp v.tol v.opt fuel p txe = .ok u) (bl bh : ℝ)
    (hl : v.b2 p.zl p.al u.1 = .ok bl) (hh : v.b2 p.zh p.ah u.2 = .ok bh) (hl0 : bl ≠ 0) (hh0 : bh ≠ 0)
    (J : Int → Nat → ℝ) (hJ : ∀ A k, J A k = if A % 2 = 0 then (k : ℝ) else (k : ℝ) + 1 / 2)
    (P : Int → ℝ → Nat → ℝ) (hP : ∀ A B k, P A B k = (2 * J A k + 1) * Real.exp (-(J A k * (J A k + 1)) / (2 * B)))
    (i j : Nat) (hi : i < v.nj) (hj : j < v.nj) (a b : Int) (ha : a = 1 ∨ a = -1) (hb : b = 1 ∨ b = -1) :
    prob (excite v fuel p txe q) ⟨u.1, u.2, some (J p.al i, J p.ah j, a, b), q⟩ = ENNReal.ofReal (1 / 4 *
      (P p.al bl i / ∑ k ∈ Finset.range v.nj, P p.al bl k) * (P p.ah bh j / ∑ k ∈ Finset.range v.nj, P p.ah bh k)) := by
  have hJs : ∀ (A : Int) (k : Nat), J A k = spinOf A k := fun A k => by rw [hJ]; rfl
  have hPs : ∀ A B, 0 ≤ ∑ k ∈ Finset.range v.nj, P A B k := fun A B => Finset.sum_nonneg fun k _ => by
    rw [hP, hJ]; split <;> positivity
  have hP0 : ∀ A B k, 0 ≤ P A B k := fun A B k => by
    rw [hP, hJ]; split <;> positivity
  have m2 : ∀ x y : Nat, Meas ((parity : Rnd ℝ Int) >>= fun a => parity >>= fun b =>
      pure (⟨u.1, u.2, some (spinOf p.al x, spinOf p.ah y, a, b), q⟩ : Exc ℝ)) := fun x y =>
    meas_bind local_parity meas_parity fun _ => meas_bind local_parity meas_parity fun _ => meas_pure _
  have l2 : ∀ x y : Nat, Local ((parity : Rnd ℝ Int) >>= fun a => parity >>= fun b =>
      pure (⟨u.1, u.2, some (spinOf p.al x, spinOf p.ah y, a, b), q⟩ : Exc ℝ)) := fun x y =>
    local_bind local_parity fun _ => local_bind local_parity fun _ => local_pure _
  have zero : ∀ x y : Nat, (x ≠ i ∨ y ≠ j) → prob ((parity : Rnd ℝ Int) >>= fun a => parity >>= fun b =>
      pure (⟨u.1, u.2, some (spinOf p.al x, spinOf p.ah y, a, b), q⟩ : Exc ℝ))
      ⟨u.1, u.2, some (spinOf p.al i, spinOf p.ah j, a, b), q⟩ = 0 := by
    intro x y hxy
    rw [prob_bind local_parity meas_parity fun _ => meas_bind local_parity meas_parity fun _ => meas_pure _]
    rw [tsum_congr (g := fun _ => 0), tsum_zero]
    intro a'
    rw [prob_bind local_parity meas_parity fun _ => meas_pure _, tsum_congr (g := fun _ => 0), tsum_zero, mul_zero]
    intro b'
    rw [prob_pure_ne, mul_zero]
    intro h
    simp only [Exc.mk.injEq, Option.some.injEq, Prod.mk.injEq] at h
    rcases hxy with hxy | hxy
    · exact hxy (spinOf_inj _ h.2.2.1.1)
    · exact hxy (spinOf_inj _ h.2.2.1.2.1)
  rw [excite_eq v hexp fuel p txe q htxe u hs bl bh hl hh hl0 hh0, hJs, hJs]
  rw [prob_bind (local_pickSpin _ _) (meas_pickSpin _ _) fun x => meas_bind (local_pickSpin _ _) (meas_pickSpin _ _) fun y => m2 x y,
    tsum_eq_single i]
  · rw [prob_bind (local_pickSpin _ _) (meas_pickSpin _ _) fun y => m2 i y, tsum_eq_single j]
    · rw [prob_index _ _ hl0, prob_index _ _ hh0, ← hJs, ← hJs,
        C85_spin v.nj hnj p.al bl hl0 i hi (J p.al) (hJ p.al), C85_spin v.nj hnj p.ah bh hh0 j hj (J p.ah) (hJ p.ah),
        prob_parities (fun a b => (⟨u.1, u.2, some (J p.al i, J p.ah j, a, b), q⟩ : Exc ℝ)) (by
          intro a b a' b' h
          simp only [Exc.mk.injEq, Option.some.injEq, Prod.mk.injEq] at h
          exact h.2.2.1.2.2) a b ha hb]
      simp only [← hP]
      rw [← ENNReal.ofReal_mul (div_nonneg (hP0 _ _ _) (hPs _ _)), ← ENNReal.ofReal_mul (div_nonneg (hP0 _ _ _) (hPs _ _))]
      congr 1
      ring
    · intro y hy
      rw [zero i y (Or.inr hy), mul_zero]
  · intro x hx
    rw [prob_bind (local_pickSpin _ _) (meas_pickSpin _ _) fun y => m2 x y, tsum_congr (g := fun _ => 0), tsum_zero, mul_zero]
    intro y
    rw [zero x y (Or.inl hx), mul_zero]

/-- An environment where the sharing and the spin parameters are defined: both fragments have level density parameter 10,
so the energy is shared equally. -/
noncomputable def spEnv : Env ℝ Unit :=
  ⟨fun _ => .ok 0, fun _ _ => .ok 0, fun _ _ => .ok 10, 1 / 100, .rt fun _ => 1, Real.exp, 50, fun _ _ u => .ok (u + 2),
    fun _ => pure 0, fun _ _ _ => pure ()⟩

/-- The spins 5/2 and 4, light fragment of negative, heavy fragment of positive parity. -/
example : prob (excite spEnv 5 ⟨97, 40, 140, 54⟩ 20 7) ⟨10, 10, some (5 / 2, 4, -1, 1), 7⟩ = ENNReal.ofReal (1 / 4 *
    (6 * Real.exp (-(35 / 96)) / ∑ k ∈ Finset.range 50, (2 * ((k : ℝ) + 1 / 2) + 1) *
      Real.exp (-(((k : ℝ) + 1 / 2) * ((k : ℝ) + 1 / 2 + 1)) / 24)) *
    (9 * Real.exp (-(5 / 6)) / ∑ k ∈ Finset.range 50, (2 * (k : ℝ) + 1) * Real.exp (-((k : ℝ) * ((k : ℝ) + 1)) / 24))) := by
  have hs : share spEnv.ldp spEnv.tol spEnv.opt 5 ⟨97, 40, 140, 54⟩ 20 = .ok ((10 : ℝ), (10 : ℝ)) := by
    simp only [share, spEnv, shareRT, shareLoop]
    norm_num
  have h := C108_joint spEnv rfl (by norm_num [spEnv]) 5 ⟨97, 40, 140, 54⟩ 20 7 (by norm_num) (10, 10) hs 12 12
    (by norm_num [spEnv]) (by norm_num [spEnv]) (by norm_num) (by norm_num)
    (fun A k => if A % 2 = 0 then (k : ℝ) else (k : ℝ) + 1 / 2) (fun _ _ => rfl) _ (fun _ _ _ => rfl) 2 4 (by norm_num [spEnv])
    (by norm_num [spEnv]) (-1) 1 (Or.inr rfl) (Or.inl rfl)
  have o : ¬ ((97 : Int) % 2 = 0) := by norm_num
  have e : ((140 : Int) % 2 = 0) := by norm_num
  simp only [o, e, if_true, if_false] at h
  rw [show ((2 : Nat) : ℝ) + 1 / 2 = 5 / 2 by norm_num, show ((4 : Nat) : ℝ) = 4 by norm_num] at h
  rw [h]
  have hn : spEnv.nj = 50 := rfl
  rw [hn]
  norm_num

end CGMF.Props

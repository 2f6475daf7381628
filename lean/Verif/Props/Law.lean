import Verif.Proofs.Rejection
import Verif.Props.Sampling
import Verif.Props.Prefission

/-!
# C85: laws of the rejection samplers

Probabilities refer to independent uniform random numbers (`Spec/Law.lean`).  The theorems give the
probability that the whole loop, however many attempts it takes, ends with a given value.
-/

namespace CGMF.Props

open MeasureTheory CGMF.Law CGMF.Frag CGMF.Pre

/-! ## The samplers as loops -/

theorem loop_pickZ (t : Tab ℝ) (A : Int) (mz : ℝ) (N : Nat) (hN : (N : Int) = 2 * t.dZ + 1) :
    Loop (-t.dZ) N mz (fun k => readAt2 t.yza (k + t.dZ) A) (fun k => pure k) (pickZ t A mz) := by
  constructor
  intro s
  have hc : ∀ a : ℝ, ⌊a * (N : ℝ) + ((-t.dZ : Int) : ℝ)⌋ = chargeOf t a := by
    intro a
    unfold chargeOf
    rw [show t.dZ - (-t.dZ) + 1 = (N : Int) by omega, Int.cast_natCast]
  rcases s with _ | ⟨r1, _ | ⟨r2, s⟩⟩
  · rfl
  · rfl
  · rw [pickZ, Rnd.bind_run, attempt, hc]
    cases readAt2 t.yza (chargeOf t r1 + t.dZ) A with
    | ok v =>
      simp only []
      by_cases h : v < r2 * mz
      · rw [if_pos h, if_neg (not_le.mpr h)]
      · rw [if_neg h, if_pos (not_lt.mp h)]
        rfl
    | exit => rfl
    | ub => rfl

theorem loop_pickAZ (t : Tab ℝ) (N : Nat) (hN : (N : Int) = t.amax - t.amin + 1) :
    Loop t.amin N t.maxA (fun k => readAt t.ya k) (fun k => withZ t k) (pickAZ t) := by
  constructor
  intro s
  have hc : ∀ a : ℝ, ⌊a * (N : ℝ) + ((t.amin : Int) : ℝ)⌋ = massOf t a := by
    intro a
    unfold massOf
    rw [← hN, Int.cast_natCast]
  rcases s with _ | ⟨r1, _ | ⟨r2, s⟩⟩
  · rfl
  · rfl
  · rw [pickAZ, Rnd.bind_run, attempt, hc]
    cases readAt t.ya (massOf t r1) with
    | ok v =>
      simp only []
      by_cases h : r2 * t.maxA ≤ v
      · rw [if_pos h, if_pos h]
      · rw [if_neg h, if_neg h]
    | exit => rfl
    | ub => rfl

theorem loop_pickSpin (nj : Nat) (ps : List ℝ) :
    Loop 0 nj 1 (fun k => readAt ps k) (fun k => pure k.toNat) (pickSpin nj ps) := by
  constructor
  intro s
  have hc : ∀ a : ℝ, ⌊a * (nj : ℝ) + ((0 : Int) : ℝ)⌋ = ⌊a * (nj : ℝ)⌋ := by
    intro a
    rw [Int.cast_zero, add_zero]
  rcases s with _ | ⟨r1, _ | ⟨r2, s⟩⟩
  · rfl
  · rfl
  · rw [pickSpin, Rnd.bind_run, attempt, hc]
    cases readAt ps ⌊r1 * (nj : ℝ)⌋ with
    | ok v =>
      simp only [mul_one]
      by_cases h : v < r2
      · rw [if_pos h, if_neg (not_le.mpr h)]
      · rw [if_neg h, if_pos (not_lt.mp h)]
        rfl
    | exit => rfl
    | ub => rfl

theorem loop_number (m : Multi ℝ) (N : Nat) (hN : (N : Int) = m.nemit + 1) :
    Loop 0 N m.pmax (fun k => readAt m.prob k) (fun k => pure k) (number m) := by
  constructor
  intro s
  have hc : ∀ a : ℝ, ⌊a * (N : ℝ) + ((0 : Int) : ℝ)⌋ = ⌊a * ((m.nemit + 1 : Int) : ℝ)⌋ := by
    intro a
    rw [Int.cast_zero, add_zero, ← hN, Int.cast_natCast]
  rcases s with _ | ⟨r1, _ | ⟨r2, s⟩⟩
  · rfl
  · rfl
  · rw [number, Rnd.bind_run, attempt, hc]
    cases readAt m.prob ⌊r1 * ((m.nemit + 1 : Int) : ℝ)⌋ with
    | ok v =>
      simp only []
      rw [mul_comm m.pmax r2]
      by_cases h : v < r2 * m.pmax
      · rw [if_pos h, if_neg (not_le.mpr h)]
      · rw [if_neg h, if_pos (not_lt.mp h)]
        rfl
    | exit => rfl
    | ub => rfl

theorem loop_pickBin (sp : List ℝ) (lo : Int) (N : Nat) (mx : ℝ) :
    Loop lo N mx (fun k => readAt sp k) (fun k => pure k) (pickBin sp lo N mx) := by
  constructor
  intro s
  have hc : ∀ a : ℝ, ⌊a * (N : ℝ) + (lo : ℝ)⌋ = ⌊(lo : ℝ) + ((N : Int) : ℝ) * a⌋ := by
    intro a
    rw [Int.cast_natCast, add_comm, mul_comm]
  rcases s with _ | ⟨r1, _ | ⟨r2, s⟩⟩
  · rfl
  · rfl
  · rw [pickBin, Rnd.bind_run, attempt, hc]
    cases readAt sp ⌊(lo : ℝ) + ((N : Int) : ℝ) * r1⌋ with
    | ok v =>
      simp only []
      rw [mul_comm mx r2]
      by_cases h : v < r2 * mx
      · rw [if_pos h, if_neg (not_le.mpr h)]
      · rw [if_neg h, if_pos (not_lt.mp h)]
        rfl
    | exit => rfl
    | ub => rfl

/-! ## C85 -/

theorem lift_ok_eq {α : Type} (a : α) : (Rnd.lift (.ok a) : Rnd ℝ α) = pure a := rfl

theorem pure_bind_eq {α β : Type} (a : α) (g : α → Rnd ℝ β) : ((pure a : Rnd ℝ α) >>= g) = g a := rfl

theorem meas_none {α : Type} {f : Rnd ℝ α} (h : ∀ s a s', f s ≠ .ok (a, s')) : Meas f := by
  intro a n
  have : At f a n = ∅ := by
    ext ω
    simp only [At, Set.mem_ofPred_eq, Set.mem_empty_iff_false, iff_false]
    exact h _ _ _
  rw [this]
  exact MeasurableSet.empty

theorem local_none {α : Type} {f : Rnd ℝ α} (h : ∀ s a s', f s ≠ .ok (a, s')) : Local f :=
  fun s a s' hs => absurd hs (h s a s')

theorem withZ_fail (t : Tab ℝ) (k : Int) (h : ∀ m, readAt t.mz k ≠ .ok m) : ∀ s a s', withZ t k s ≠ .ok (a, s') := by
  intro s a s' hc
  unfold withZ at hc
  obtain ⟨m, s1, h1, _⟩ := Rnd.bind_ok.mp hc
  exact h m (Rnd.lift_ok.mp h1).1

theorem withZ_eq (t : Tab ℝ) (k : Int) (m : ℝ) (h : readAt t.mz k = .ok m) :
    withZ t k = (pickZ t k m >>= fun z => pure (k, z)) := by
  unfold withZ
  rw [h, lift_ok_eq, pure_bind_eq]

theorem reg_withZ (t : Tab ℝ) (hd : 0 ≤ t.dZ) (k : Int) : Local (withZ t k) ∧ Meas (withZ t k) := by
  obtain ⟨N, hN⟩ := Int.eq_ofNat_of_zero_le (show 0 ≤ 2 * t.dZ + 1 by omega)
  by_cases h : ∃ m, readAt t.mz k = .ok m
  · obtain ⟨m, h⟩ := h
    rw [withZ_eq t k m h]
    have hl := local_loop (loop_pickZ t k m N hN.symm) (fun k => local_pure k)
    have hm := meas_loop (loop_pickZ t k m N hN.symm) (fun k => meas_pure k)
    exact ⟨local_bind hl fun _ => local_pure _, meas_bind hl hm fun _ => meas_pure _⟩
  · have hf := withZ_fail t k (fun m hc => h ⟨m, hc⟩)
    exact ⟨local_none hf, meas_none hf⟩

theorem reg_pickAZ (t : Tab ℝ) (hd : 0 ≤ t.dZ) (hA : t.amin ≤ t.amax) : Local (pickAZ t) ∧ Meas (pickAZ t) := by
  obtain ⟨N, hN⟩ := Int.eq_ofNat_of_zero_le (show 0 ≤ t.amax - t.amin + 1 by omega)
  exact ⟨local_loop (loop_pickAZ t N hN.symm) (fun k => (reg_withZ t hd k).1),
    meas_loop (loop_pickAZ t N hN.symm) (fun k => (reg_withZ t hd k).2)⟩

/-- The yields the mass and charge loops use: `YA i` of mass `amin + i`, and for each mass the yields
`YZ i j` of the charge offsets `-dZ + j`, none negative, none above the maximum the loops compare with. -/
structure Yields (t : Tab ℝ) (NA NZ : Nat) (YA : Nat → ℝ) (YZ : Nat → Nat → ℝ) : Prop where
  dZ : 0 ≤ t.dZ
  nA : (NA : Int) = t.amax - t.amin + 1
  nZ : (NZ : Int) = 2 * t.dZ + 1
  ya : ∀ i < NA, readAt t.ya (t.amin + (i : Int)) = .ok (YA i)
  yz : ∀ i < NA, ∀ j < NZ, readAt2 t.yza (-t.dZ + (j : Int) + t.dZ) (t.amin + (i : Int)) = .ok (YZ i j)
  ya0 : ∀ i < NA, 0 ≤ YA i
  yaM : ∀ i < NA, YA i ≤ t.maxA
  yz0 : ∀ i < NA, ∀ j < NZ, 0 ≤ YZ i j
  yzM : ∀ i < NA, ∃ m, readAt t.mz (t.amin + (i : Int)) = .ok m ∧ ∀ j < NZ, YZ i j ≤ m
  pos : 0 < ∑ i ∈ Finset.range NA, YA i
  posZ : ∀ i < NA, 0 < YA i → 0 < ∑ j ∈ Finset.range NZ, YZ i j

/-- The charge loop returns the mass it was given. -/
theorem prob_withZ_ne (t : Tab ℝ) (k A z : Int) (hk : k ≠ A) : prob (withZ t k) (A, z) = 0 := by
  unfold prob
  have : {ω | ∃ n, withZ t k (pre ω n) = .ok ((A, z), [])} = ∅ := by
    ext ω
    simp only [Set.mem_ofPred_eq, Set.mem_empty_iff_false, iff_false, not_exists]
    intro n hc
    obtain ⟨m, iZ, _, h2, _⟩ := withZ_ok hc
    exact hk (Prod.mk.inj h2).1.symm
  rw [this, measure_empty]

/-- The charge loop of one mass. -/
theorem prob_withZ {t : Tab ℝ} {NA NZ : Nat} {YA : Nat → ℝ} {YZ : Nat → Nat → ℝ} (h : Yields t NA NZ YA YZ)
    (i : Nat) (hi : i < NA) (hp : 0 < YA i) (j : Nat) (hj : j < NZ) (k : Nat) :
    prob (withZ t (t.amin + (k : Int))) (t.amin + (i : Int), -t.dZ + (j : Int))
      = if k = i then ENNReal.ofReal (YZ i j / ∑ l ∈ Finset.range NZ, YZ i l) else 0 := by
  by_cases hk : k = i
  · subst hk
    rw [if_pos rfl]
    obtain ⟨m, hm, hmx⟩ := h.yzM k hi
    have hs := h.posZ k hi hp
    have hm0 : 0 < m := by
      by_contra hc
      have : ∑ l ∈ Finset.range NZ, YZ k l ≤ 0 := Finset.sum_nonpos fun l hl =>
        (hmx l (Finset.mem_range.mp hl)).trans (not_lt.mp hc)
      linarith
    have hloop := loop_pickZ t (t.amin + (k : Int)) m NZ h.nZ
    have hl := local_loop hloop (fun k => local_pure k)
    have hme := meas_loop hloop (fun k => meas_pure k)
    rw [withZ_eq t _ m hm, prob_bind hl hme (fun _ => meas_pure _), tsum_eq_single (-t.dZ + (j : Int))]
    · rw [prob_pure_self, mul_one]
      exact prob_loop_pure hloop hm0 (YZ k) (fun l hl => h.yz k hi l hl) (fun l hl => h.yz0 k hi l hl) hmx hs j hj
    · intro z hz
      rw [prob_pure_ne, mul_zero]
      intro hc
      exact hz (Prod.mk.inj hc).2
  · rw [if_neg hk, prob_withZ_ne]
    omega

/-- **C85.** The loops over masses and charges end with mass `A` and charge offset `z` with probability
`Y(A)/ΣY * Y(z,A)/Σ_z Y(z,A)`: the sampled fragments follow the yields exactly, whatever number of attempts the
loops need. -/
theorem C85_mass_charge {t : Tab ℝ} {NA NZ : Nat} {YA : Nat → ℝ} {YZ : Nat → Nat → ℝ} (h : Yields t NA NZ YA YZ)
    (i j : Nat) (hi : i < NA) (hj : j < NZ) :
    prob (pickAZ t) (t.amin + (i : Int), -t.dZ + (j : Int))
      = ENNReal.ofReal (YA i / (∑ k ∈ Finset.range NA, YA k) * (YZ i j / ∑ l ∈ Finset.range NZ, YZ i l)) := by
  have hM : 0 < t.maxA := by
    by_contra hc
    have : ∑ l ∈ Finset.range NA, YA l ≤ 0 := Finset.sum_nonpos fun l hl =>
      (h.yaM l (Finset.mem_range.mp hl)).trans (not_lt.mp hc)
    linarith [h.pos]
  rw [prob_loop (loop_pickAZ t NA h.nA) (fun k => (reg_withZ t h.dZ k).2) hM YA h.ya h.ya0 h.yaM h.pos]
  rcases (h.ya0 i hi).lt_or_eq with hp | hp
  · rw [Finset.sum_eq_single i]
    · rw [prob_withZ h i hi hp j hj i, if_pos rfl, ENNReal.ofReal_mul (div_nonneg hp.le h.pos.le)]
    · intro k _ hk
      rw [prob_withZ h i hi hp j hj k, if_neg hk, mul_zero]
    · intro hc
      exact absurd (Finset.mem_range.mpr hi) hc
  · rw [← hp, zero_div, zero_mul, ENNReal.ofReal_zero]
    apply Finset.sum_eq_zero
    intro k _
    by_cases hk : k = i
    · rw [hk, ← hp, zero_div, ENNReal.ofReal_zero, zero_mul]
    · rw [prob_withZ_ne t _ _ _ (by omega), mul_zero]

/-- **C85.** The loops over masses and charges end with probability one, with one of the tabulated masses and
charge offsets. -/
theorem C85_ends {t : Tab ℝ} {NA NZ : Nat} {YA : Nat → ℝ} {YZ : Nat → Nat → ℝ} (h : Yields t NA NZ YA YZ) :
    ∑ i ∈ Finset.range NA, ∑ j ∈ Finset.range NZ, prob (pickAZ t) (t.amin + (i : Int), -t.dZ + (j : Int)) = 1 := by
  have hin : ∀ i ∈ Finset.range NA, ∑ j ∈ Finset.range NZ, prob (pickAZ t) (t.amin + (i : Int), -t.dZ + (j : Int))
      = ENNReal.ofReal (YA i / ∑ k ∈ Finset.range NA, YA k) := by
    intro i hi
    rw [Finset.mem_range] at hi
    have e : ∀ j ∈ Finset.range NZ, prob (pickAZ t) (t.amin + (i : Int), -t.dZ + (j : Int))
        = ENNReal.ofReal (YA i / (∑ k ∈ Finset.range NA, YA k) * (YZ i j / ∑ l ∈ Finset.range NZ, YZ i l)) :=
      fun j hj => C85_mass_charge h i j hi (Finset.mem_range.mp hj)
    rw [Finset.sum_congr rfl e]
    rcases (h.ya0 i hi).lt_or_eq with hp | hp
    · have hz := h.posZ i hi hp
      rw [← ENNReal.ofReal_sum_of_nonneg, ← Finset.mul_sum, ← Finset.sum_div, div_self hz.ne', mul_one]
      intro j hj
      exact mul_nonneg (div_nonneg hp.le h.pos.le) (div_nonneg (h.yz0 i hi j (Finset.mem_range.mp hj)) hz.le)
    · rw [← hp]
      simp
  rw [Finset.sum_congr rfl hin, ← ENNReal.ofReal_sum_of_nonneg, ← Finset.sum_div, div_self h.pos.ne', ENNReal.ofReal_one]
  intro i hi
  exact div_nonneg (h.ya0 i (Finset.mem_range.mp hi)) h.pos.le

/-- Tables with two masses and three charge offsets. -/
noncomputable def lawTab : Tab ℝ :=
  ⟨1, 2, 3 / 4, 1, [0, 3 / 4, 1 / 2], [[0, 1 / 4, 0], [0, 1, 1], [0, 1 / 4, 1 / 2]], [0, 1, 1], [0, 0, 0]⟩

theorem lawTab_yields : Yields lawTab 2 3 (fun i => [3 / 4, 1 / 2].getD i 0)
    (fun i j => ([[1 / 4, 1, 1 / 4], [0, 1, 1 / 2]].getD i []).getD j 0) := by
  refine ⟨by norm_num [lawTab], by norm_num [lawTab], by norm_num [lawTab], ?_, ?_, ?_, ?_, ?_, ?_, ?_, ?_⟩
  · intro i hi
    interval_cases i <;> rfl
  · intro i hi j hj
    interval_cases i <;> interval_cases j <;> rfl
  · intro i hi
    interval_cases i <;> norm_num
  · intro i hi
    interval_cases i <;> norm_num [lawTab]
  · intro i hi j hj
    interval_cases i <;> interval_cases j <;> norm_num
  · intro i hi
    interval_cases i
    · refine ⟨1, rfl, fun j hj => ?_⟩
      interval_cases j <;> norm_num
    · refine ⟨1, rfl, fun j hj => ?_⟩
      interval_cases j <;> norm_num
  · norm_num [Finset.sum_range_succ]
  · intro i hi _
    interval_cases i <;> norm_num [Finset.sum_range_succ]

/-- Mass 2 with charge offset 1 comes with probability `(1/2)/(5/4) * (1/2)/(3/2) = 2/15`. -/
example : prob (pickAZ lawTab) (2, 1) = ENNReal.ofReal (2 / 15) := by
  have := C85_mass_charge lawTab_yields 1 2 (by norm_num) (by norm_num)
  rw [show (lawTab.amin + ((1 : Nat) : Int), -lawTab.dZ + ((2 : Nat) : Int)) = ((2, 1) : Int × Int) from rfl] at this
  rw [this]
  congr 1
  norm_num [Finset.sum_range_succ]

/-! ### The pair of fragments -/

/-- **C85.** A pair of fragments is sampled with the sum of the probabilities of the masses and charge offsets
that are assigned to it: both a light mass and its complementary heavy mass lead to the same pair. -/
theorem C85_pair {t : Tab ℝ} {NA NZ : Nat} {YA : Nat → ℝ} {YZ : Nat → Nat → ℝ} (h : Yields t NA NZ YA YZ)
    (z0 : Nat → ℝ) (hz : ∀ i < NA, readAt t.z0 (t.amin + (i : Int)) = .ok (z0 i)) (ac zc : Int) (q : Pair) :
    prob (pair t ac zc) q = ENNReal.ofReal (∑ i ∈ Finset.range NA, ∑ j ∈ Finset.range NZ,
      if assign ac zc (t.amin + (i : Int)) (-t.dZ + (j : Int)) ⌊z0 i + 1 / 2⌋ = q then
        YA i / (∑ k ∈ Finset.range NA, YA k) * (YZ i j / ∑ l ∈ Finset.range NZ, YZ i l) else 0) := by
  have hA : t.amin ≤ t.amax := by
    by_contra hc
    have : NA = 0 := by have := h.nA; omega
    have hp := h.pos
    rw [this] at hp
    simp at hp
  obtain ⟨hl, hm⟩ := reg_pickAZ t h.dZ hA
  -- the continuation
  have hg : ∀ p : Int × Int, Meas (Rnd.lift (readAt t.z0 p.1) >>= fun z =>
      (pure (assign ac zc p.1 p.2 ⌊z + 1 / 2⌋) : Rnd ℝ Pair)) := by
    intro p
    cases hr : readAt t.z0 p.1 with
    | ok z => rw [lift_ok_eq, pure_bind_eq]; exact meas_pure _
    | exit => exact meas_none fun s a s' hc => by cases hc
    | ub => exact meas_none fun s a s' hc => by cases hc
  have e : pair t ac zc = (pickAZ t >>= fun p => Rnd.lift (readAt t.z0 p.1) >>= fun z =>
      (pure (assign ac zc p.1 p.2 ⌊z + 1 / 2⌋) : Rnd ℝ Pair)) := rfl
  rw [e, prob_bind hl hm hg]
  set G : Int × Int → ENNReal := fun p => prob (pickAZ t) p * prob (Rnd.lift (readAt t.z0 p.1) >>= fun z =>
      (pure (assign ac zc p.1 p.2 ⌊z + 1 / 2⌋) : Rnd ℝ Pair)) q with hG
  have hinj : ∀ x ∈ Finset.range NA ×ˢ Finset.range NZ, ∀ y ∈ Finset.range NA ×ˢ Finset.range NZ,
      ((t.amin + (x.1 : Int), -t.dZ + (x.2 : Int)) : Int × Int) = (t.amin + (y.1 : Int), -t.dZ + (y.2 : Int)) → x = y := by
    rintro ⟨a, b⟩ _ ⟨c, d⟩ _ hxy
    simp only [Prod.mk.injEq] at hxy ⊢
    omega
  -- only tabulated values have positive probability
  have hzero : ∀ p : Int × Int, p ∉ (Finset.range NA ×ˢ Finset.range NZ).image
      (fun x : Nat × Nat => (t.amin + (x.1 : Int), -t.dZ + (x.2 : Int))) → G p = 0 := by
    intro p hp
    have : prob (pickAZ t) p = 0 := by
      refine prob_zero_of_sum hl hm _ ?_ p hp
      rw [Finset.sum_image hinj, Finset.sum_product]
      exact C85_ends h
    rw [hG]
    simp only [this, zero_mul]
  rw [tsum_eq_sum hzero, Finset.sum_image hinj, Finset.sum_product, ENNReal.ofReal_sum_of_nonneg]
  · apply Finset.sum_congr rfl
    intro i hi
    rw [Finset.mem_range] at hi
    rw [ENNReal.ofReal_sum_of_nonneg]
    · apply Finset.sum_congr rfl
      intro j hj
      rw [Finset.mem_range] at hj
      simp only [hG]
      rw [C85_mass_charge h i j hi hj, hz i hi, lift_ok_eq, pure_bind_eq]
      split
      · rename_i he
        rw [he, prob_pure_self, mul_one]
      · rename_i he
        rw [prob_pure_ne he, mul_zero, ENNReal.ofReal_zero]
    · intro j hj
      split
      · exact mul_nonneg (div_nonneg (h.ya0 i hi) h.pos.le) (div_nonneg (h.yz0 i hi j (Finset.mem_range.mp hj))
          (Finset.sum_nonneg fun l hl => h.yz0 i hi l (Finset.mem_range.mp hl)))
      · exact le_refl _
  · intro i hi
    rw [Finset.mem_range] at hi
    apply Finset.sum_nonneg
    intro j hj
    split
    · exact mul_nonneg (div_nonneg (h.ya0 i hi) h.pos.le) (div_nonneg (h.yz0 i hi j (Finset.mem_range.mp hj))
        (Finset.sum_nonneg fun l hl => h.yz0 i hi l (Finset.mem_range.mp hl)))
    · exact le_refl _

/-- With three nucleons and charge 0, mass 1 with offset `z` and mass 2 with offset `-z` are the same pair:
probability `(3/4)/(5/4) * (1/4)/(3/2) + 0 = 1/10` for a light fragment of charge 1. -/
example : prob (pair lawTab 3 0) ⟨1, 1, 2, -1⟩ = ENNReal.ofReal (1 / 10) := by
  rw [C85_pair lawTab_yields (fun _ => 0) (fun i hi => by interval_cases i <;> rfl)]
  congr 1
  have : ⌊(0 : ℝ) + 1 / 2⌋ = 0 := by norm_num
  simp only [this]
  norm_num [Finset.sum_range_succ, assign, lawTab]

/-! ### Spins, parities and numbers of pre-fission neutrons -/

/-- **C85.** The spin loop ends with spin `J` with probability `(2J+1) exp(-J(J+1)/(2 B²)) / Σ`, the sum over the
`nj` spins `0, 1, ...` or `1/2, 3/2, ...`. -/
theorem C85_spin (nj : Nat) (hnj : 0 < nj) (A : Int) (B2 : ℝ) (hB : B2 ≠ 0) (j : Nat) (hj : j < nj) (J : Nat → ℝ)
    (hJ : ∀ k, J k = if A % 2 = 0 then (k : ℝ) else (k : ℝ) + 1 / 2) :
    prob (spin Real.exp nj A B2) (J j) = ENNReal.ofReal ((2 * J j + 1) * Real.exp (-(J j * (J j + 1)) / (2 * B2)) /
      ∑ k ∈ Finset.range nj, (2 * J k + 1) * Real.exp (-(J k * (J k + 1)) / (2 * B2))) := by
  obtain ⟨d1, d2, d3⟩ := C54_distribution Real.exp Real.exp_pos nj hnj A B2
  have hJs : ∀ k : Nat, (spinOf A k : ℝ) = J k := fun k => by rw [hJ]; rfl
  set R : Nat → ℝ := fun k => (2 * J k + 1) * Real.exp (-(J k * (J k + 1)) / (2 * B2)) with hR
  have hps : ∀ i < nj, readAt (spinProb Real.exp nj A B2) (0 + (i : Int)) = .ok (R i / ∑ k ∈ Finset.range nj, R k) := by
    intro i hi
    rw [zero_add, readAt_ok_iff]
    refine ⟨by omega, ?_⟩
    unfold spinProb
    simp only [Int.toNat_natCast, List.getElem?_map, List.getElem?_range hi, Option.map_some, hJs]
    congr 2
  have hRp : ∀ i < nj, 0 ≤ R i / ∑ k ∈ Finset.range nj, R k ∧ R i / ∑ k ∈ Finset.range nj, R k ≤ 1 := by
    intro i hi
    have hm := List.mem_of_getElem? (readAt_ok_iff.mp (hps i hi)).2
    refine ⟨(d2 _ hm).le, ?_⟩
    rw [← d3]
    exact List.single_le_sum (fun x hx => (d2 x hx).le) _ hm
  have hpos : 0 < ∑ i ∈ Finset.range nj, R i / ∑ k ∈ Finset.range nj, R k := by
    have h0 : ∀ i ∈ Finset.range nj, 0 < R i / ∑ k ∈ Finset.range nj, R k := fun i hi =>
      d2 _ (List.mem_of_getElem? (readAt_ok_iff.mp (hps i (Finset.mem_range.mp hi))).2)
    exact Finset.sum_pos h0 ⟨0, Finset.mem_range.mpr hnj⟩
  have hone : ∑ i ∈ Finset.range nj, R i / ∑ k ∈ Finset.range nj, R k = 1 := by
    rw [← Finset.sum_div] at hpos ⊢
    exact div_self fun hc => by rw [hc, div_zero] at hpos; exact lt_irrefl _ hpos
  have hloop := loop_pickSpin nj (spinProb Real.exp nj A B2)
  have hl := local_loop hloop (fun k => local_pure k.toNat)
  have hm := meas_loop hloop (fun k => meas_pure k.toNat)
  have hpick : ∀ i, i < nj → prob (pickSpin nj (spinProb Real.exp nj A B2)) i
      = ENNReal.ofReal (R i / ∑ k ∈ Finset.range nj, R k) := by
    intro i hi
    rw [prob_loop hloop (fun k => meas_pure k.toNat) one_pos (fun i => R i / ∑ k ∈ Finset.range nj, R k) hps
      (fun i hi => (hRp i hi).1) (fun i hi => (hRp i hi).2) hpos, Finset.sum_eq_single i]
    · rw [show (0 + (i : Int)).toNat = i by omega, prob_pure_self, mul_one, hone, div_one]
    · intro k _ hk
      rw [prob_pure_ne (by omega), mul_zero]
    · intro hc
      exact absurd (Finset.mem_range.mpr hi) hc
  have e : spin Real.exp nj A B2 = (pickSpin nj (spinProb Real.exp nj A B2) >>= fun j => pure (spinOf A j)) := by
    unfold spin
    rw [if_neg hB]
  rw [e, prob_bind hl hm (fun _ => meas_pure _), tsum_eq_single j]
  · rw [hJs, prob_pure_self, mul_one]
    exact hpick j hj
  · intro k hk
    rw [prob_pure_ne, mul_zero]
    rw [hJs, hJ, hJ]
    split
    · exact_mod_cast hk
    · intro hc
      rw [add_left_inj] at hc
      exact hk (by exact_mod_cast hc)

/-- With a spin cut-off of 50 values, as in the code, the probability of spin 5/2 for an odd mass number. -/
example : prob (spin Real.exp 50 97 12) (5 / 2) = ENNReal.ofReal (6 * Real.exp (-(35 / 96)) /
    ∑ k ∈ Finset.range 50, (2 * ((k : ℝ) + 1 / 2) + 1) * Real.exp (-(((k : ℝ) + 1 / 2) * (((k : ℝ) + 1 / 2) + 1)) / (2 * 12))) := by
  have := C85_spin 50 (by norm_num) 97 12 (by norm_num) 2 (by norm_num) (fun k => (k : ℝ) + 1 / 2)
    (fun k => by norm_num)
  rw [show ((2 : Nat) : ℝ) + 1 / 2 = 5 / 2 by norm_num] at this
  rw [this]
  norm_num

/-- **C85.** The number of pre-fission neutrons follows the multi-chance probabilities. -/
theorem C85_number (m : Multi ℝ) (N : Nat) (hN : (N : Int) = m.nemit + 1) (P : Nat → ℝ)
    (hP : ∀ i < N, m.prob[i]? = some (P i)) (h0 : ∀ i < N, 0 ≤ P i) (hM : ∀ i < N, P i ≤ m.pmax)
    (hs : 0 < ∑ i ∈ Finset.range N, P i) (n : Nat) (hn : n < N) :
    prob (number m) (n : Int) = ENNReal.ofReal (P n / ∑ i ∈ Finset.range N, P i) := by
  have hpm : 0 < m.pmax := by
    by_contra hc
    have : ∑ l ∈ Finset.range N, P l ≤ 0 := Finset.sum_nonpos fun l hl =>
      (hM l (Finset.mem_range.mp hl)).trans (not_lt.mp hc)
    linarith
  have := prob_loop_pure (loop_number m N hN) hpm P (fun i hi => by
    rw [zero_add, readAt_ok_iff, Int.toNat_natCast]; exact ⟨by omega, hP i hi⟩) h0 hM hs n hn
  rwa [zero_add] at this

example : prob (number (⟨1, [4 / 5, 1 / 10], 4 / 5⟩ : Multi ℝ)) 1 = ENNReal.ofReal (1 / 9) := by
  have := C85_number (⟨1, [4 / 5, 1 / 10], 4 / 5⟩ : Multi ℝ) 2 rfl (fun i => [4 / 5, 1 / 10].getD i 0)
    (fun i hi => by interval_cases i <;> rfl) (fun i hi => by interval_cases i <;> norm_num)
    (fun i hi => by interval_cases i <;> norm_num) (by norm_num [Finset.sum_range_succ]) 1 (by norm_num)
  rw [show (((1 : Nat) : Int)) = 1 from rfl] at this
  rw [this]
  norm_num [Finset.sum_range_succ]

/-- **C85.** The energy bin of a pre-fission neutron is drawn in proportion to the spectrum over the `N` bins
from `lo`, when the maximum handed over bounds it. -/
theorem C85_bin (sp : List ℝ) (lo : Nat) (N : Nat) (mx : ℝ) (S : Nat → ℝ) (hS : ∀ i < N, sp[lo + i]? = some (S i))
    (h0 : ∀ i < N, 0 ≤ S i) (hM : ∀ i < N, S i ≤ mx) (hs : 0 < ∑ i ∈ Finset.range N, S i) (i : Nat) (hi : i < N) :
    prob (pickBin sp lo N mx) ((lo : Int) + i) = ENNReal.ofReal (S i / ∑ k ∈ Finset.range N, S k) := by
  have hpm : 0 < mx := by
    by_contra hc
    have : ∑ l ∈ Finset.range N, S l ≤ 0 := Finset.sum_nonpos fun l hl =>
      (hM l (Finset.mem_range.mp hl)).trans (not_lt.mp hc)
    linarith
  exact prob_loop_pure (loop_pickBin sp lo N mx) hpm S (fun i hi => by
    rw [readAt_ok_iff]
    refine ⟨by omega, ?_⟩
    rw [show ((lo : Int) + (i : Int)).toNat = lo + i by omega]
    exact hS i hi) h0 hM hs i hi

example : prob (pickBin ([7, 1, 3] : List ℝ) 1 2 3) 2 = ENNReal.ofReal (3 / 4) := by
  have := C85_bin ([7, 1, 3] : List ℝ) 1 2 3 (fun i => [1, 3].getD i 0) (fun i hi => by interval_cases i <;> rfl)
    (fun i hi => by interval_cases i <;> norm_num) (fun i hi => by interval_cases i <;> norm_num)
    (by norm_num [Finset.sum_range_succ]) 1 (by norm_num)
  refine Eq.trans this ?_
  norm_num [Finset.sum_range_succ]

end CGMF.Props

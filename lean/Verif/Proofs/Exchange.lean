import Verif.Proofs.Rejection

/-! # The random numbers are exchangeable; each of the first `n` is the largest with probability `1 / n` -/

namespace CGMF.Law

open MeasureTheory

theorem stream_perm (e : Equiv.Perm ℕ) : stream.map (fun ω k => ω (e k)) = stream := by
  have h := Measure.infinitePi_map_piCongrLeft (X := fun _ : ℕ => ℝ) (μ := fun _ : ℕ => unif) e.symm
  have e1 : (MeasurableEquiv.piCongrLeft (fun _ : ℕ => ℝ) e.symm : (ℕ → ℝ) → (ℕ → ℝ)) = fun ω k => ω (e k) := by
    funext ω k
    have := Equiv.piCongrLeft_apply_apply (fun _ : ℕ => ℝ) e.symm ω (e k)
    rw [Equiv.symm_apply_apply] at this
    exact this
  rw [e1] at h
  exact h

theorem measurable_perm (e : Equiv.Perm ℕ) : Measurable fun (ω : ℕ → ℝ) k => ω (e k) :=
  measurable_pi_lambda _ fun k => measurable_pi_apply (e k)

theorem stream_perm_apply (e : Equiv.Perm ℕ) {S : Set (ℕ → ℝ)} (hS : MeasurableSet S) :
    stream {ω | (fun k => ω (e k)) ∈ S} = stream S := by
  conv_rhs => rw [← stream_perm e, Measure.map_apply (measurable_perm e) hS]
  rfl

theorem measurable_eq_at (i j : Nat) : MeasurableSet {ω : ℕ → ℝ | ω i = ω j} :=
  measurableSet_eq_fun (measurable_pi_apply i) (measurable_pi_apply j)

/-- Two numbers of the sequence differ. -/
theorem stream_tie {i j : Nat} (h : i ≠ j) : stream {ω | ω i = ω j} = 0 := by
  have h01 : stream {ω : ℕ → ℝ | ω 0 = ω 1} = 0 := by
    have hR : MeasurableSet {x : ℝ × ℝ | x.1 = x.2} := measurableSet_eq_fun measurable_fst measurable_snd
    have := stream_two hR
    refine Eq.trans this (measure_mono_null (t := {x : ℝ × ℝ | x.1 = x.2}) (fun x hx => hx.2.2) ?_)
    rw [Measure.volume_eq_prod, Measure.prod_apply hR]
    simp only [Set.preimage_ofPred_eq]
    have : ∀ x : ℝ, volume {y : ℝ | x = y} = 0 := fun x => by
      rw [show {y : ℝ | x = y} = {x} from by ext; simp [eq_comm]]
      simp
    simp [this]
  have := stream_perm_apply ((Equiv.swap 1 (Equiv.swap 0 i j)).trans (Equiv.swap 0 i)) (measurable_eq_at 0 1)
  rw [h01] at this
  rw [← this]
  congr 1
  ext ω
  simp only [Set.mem_ofPred_eq, Equiv.trans_apply, Equiv.swap_apply_left]
  have h0 : (Equiv.swap 1 (Equiv.swap 0 i j)) 0 = 0 := by
    apply Equiv.swap_apply_of_ne_of_ne (by norm_num)
    intro hc
    have h2 := congrArg (Equiv.swap 0 i) hc
    rw [Equiv.swap_apply_left, Equiv.swap_apply_self] at h2
    exact h h2
  rw [h0, Equiv.swap_apply_left, Equiv.swap_apply_self]

/-- The `i`-th number is the largest of the first `n`. -/
def Largest (n i : Nat) : Set (ℕ → ℝ) := {ω | ∀ k < n, k ≠ i → ω k < ω i}

theorem measurable_largest (n i : Nat) : MeasurableSet (Largest n i) := by
  unfold Largest
  have : {ω : ℕ → ℝ | ∀ k < n, k ≠ i → ω k < ω i} = ⋂ k, ⋂ (_ : k < n), ⋂ (_ : k ≠ i), {ω | ω k < ω i} := by
    ext ω; simp
  rw [this]
  exact MeasurableSet.iInter fun k => MeasurableSet.iInter fun _ => MeasurableSet.iInter fun _ =>
    measurableSet_lt (measurable_pi_apply k) (measurable_pi_apply i)

theorem largest_swap {n i j : Nat} (hi : i < n) (hj : j < n) : stream (Largest n i) = stream (Largest n j) := by
  rw [← stream_perm_apply (Equiv.swap i j) (measurable_largest n j)]
  congr 1
  ext ω
  simp only [Largest, Set.mem_ofPred_eq, Equiv.swap_apply_right]
  constructor
  · intro h k hk hkj
    apply h
    · by_cases h1 : k = i
      · subst h1; rw [Equiv.swap_apply_left]; exact hj
      · rw [Equiv.swap_apply_of_ne_of_ne h1 hkj]; exact hk
    · intro hc
      rw [Equiv.swap_apply_eq_iff, Equiv.swap_apply_left] at hc
      exact hkj hc
  · intro h k hk hki
    have := h (Equiv.swap i j k) (by
      by_cases h1 : k = j
      · subst h1; rw [Equiv.swap_apply_right]; exact hi
      · rw [Equiv.swap_apply_of_ne_of_ne hki h1]; exact hk) (by
      intro hc
      rw [Equiv.swap_apply_eq_iff, Equiv.swap_apply_right] at hc
      exact hki hc)
    rwa [Equiv.swap_apply_self] at this

/-- All numbers of the sequence differ. -/
theorem stream_distinct : ∀ᵐ ω ∂stream, ∀ i j : Nat, i ≠ j → ω i ≠ ω j := by
  rw [ae_all_iff]; intro i
  rw [ae_all_iff]; intro j
  by_cases h : i = j
  · simp [h]
  · have := stream_tie h
    rw [ae_iff]
    simpa [h] using this

theorem some_largest {n : Nat} (hn : 0 < n) {ω : ℕ → ℝ} (hd : ∀ i j : Nat, i ≠ j → ω i ≠ ω j) : ∃ i < n, ω ∈ Largest n i := by
  obtain ⟨i, hi, hm⟩ := Finset.exists_max_image (Finset.range n) ω ⟨0, by simpa using hn⟩
  refine ⟨i, by simpa using hi, fun k hk hki => lt_of_le_of_ne (hm k (by simpa using hk)) (hd k i hki)⟩

/-- Each of the first `n` numbers is the largest with probability `1 / n`. -/
theorem stream_largest {n i : Nat} (hi : i < n) : stream (Largest n i) = (n : ENNReal)⁻¹ := by
  have hn : 0 < n := by omega
  have hsum : ∑ k ∈ Finset.range n, stream (Largest n k) = 1 := by
    rw [← measure_biUnion_finset]
    · rw [← measure_univ (μ := stream)]
      apply measure_congr
      refine Filter.eventuallyEq_set.mpr ?_
      filter_upwards [stream_distinct] with ω hd
      obtain ⟨k, hk, hm⟩ := some_largest hn hd
      simp only [Set.mem_iUnion, Set.mem_univ, iff_true]
      exact ⟨k, by simpa using hk, hm⟩
    · intro k hk l hl hkl
      rw [Function.onFun, Set.disjoint_left]
      intro ω h1 h2
      have a := h1 l (by simpa using hl) (Ne.symm hkl)
      have b := h2 k (by simpa using hk) hkl
      exact absurd a (not_lt.mpr b.le)
    · intro k _
      exact measurable_largest n k
  rw [Finset.sum_congr rfl fun k hk => largest_swap (by simpa using hk) hi, Finset.sum_const, Finset.card_range, nsmul_eq_mul] at hsum
  exact (ENNReal.eq_inv_of_mul_eq_one_left (by rw [mul_comm]; exact hsum))

end CGMF.Law

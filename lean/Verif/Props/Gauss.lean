import Verif.Proofs.Gauss
import Verif.Proofs.Prefission

/-!
# C99: normally distributed numbers

Probabilities refer to independent uniform random numbers (`Spec/Law.lean`).
-/

namespace CGMF.Props

open MeasureTheory ProbabilityTheory CGMF.Law CGMF.Gauss

/-- The sampler is a loop over pairs. -/
theorem pairs_sample : PairLoop {r | (2 * r.1 - 1, 2 * r.2 - 1) ∈ disc} (fun r => polarValue (2 * r.1 - 1, 2 * r.2 - 1))
    (sampleGaussian Real.log Real.sqrt) where
  nil := by intro x h; cases h
  one := by intro r x h; cases h
  yes := by
    intro r1 r2 s h
    rw [sampleGaussian]
    exact if_neg h
  no := by
    intro r1 r2 s h
    rw [sampleGaussian]
    exact if_pos (not_not.1 h)

theorem pairs_normal (m sd : ℝ) : PairLoop {r | (2 * r.1 - 1, 2 * r.2 - 1) ∈ disc}
    (fun r => sd * polarValue (2 * r.1 - 1, 2 * r.2 - 1) + m) (normaldist Real.log Real.sqrt m sd) where
  nil := by intro x h; cases h
  one := by intro r x h; cases h
  yes := by
    intro r1 r2 s h
    rw [normaldist]
    exact if_neg fun h' => h h'.symm
  no := by
    intro r1 r2 s h
    rw [normaldist]
    exact if_pos (not_not.1 h).symm

theorem pairs_tke (av sd : List ℝ) (acn : Int) (resc : ℝ) (A : Int) (t s : ℝ)
    (ht : readAt av (Yld.heavyIdx acn A) = .ok t) (hs : readAt sd (Yld.heavyIdx acn A) = .ok s) :
    PairLoop {r | (2 * r.1 - 1, 2 * r.2 - 1) ∈ disc} (fun r => resc * t + s * polarValue (2 * r.1 - 1, 2 * r.2 - 1))
      (drawTKE Real.log Real.sqrt av sd acn resc A) := by
  have hv : ∀ g, Yld.sampleTKE av sd acn resc A g = .ok (resc * t + s * g) := by
    intro g
    unfold Yld.sampleTKE
    rw [ht]
    show (readAt sd (Yld.heavyIdx acn A)).bind _ = _
    rw [hs]
    rfl
  constructor
  · intro x h; cases h
  · intro r x h; cases h
  · intro r1 r2 rs h
    unfold drawTKE
    rw [Rnd.bind_of_ok (pairs_sample.yes r1 r2 rs h), hv]
    rfl
  · intro r1 r2 rs h
    unfold drawTKE
    rw [Rnd.bind_run, Rnd.bind_run, pairs_sample.no r1 r2 rs h]

/-- Image of the normal distribution. -/
theorem normal_image (m s : ℝ) {S : Set ℝ} (hS : MeasurableSet S) :
    gaussianReal 0 1 ((fun g => m + s * g) ⁻¹' S) = gaussianReal m (s ^ 2).toNNReal S := by
  have h1 : (gaussianReal 0 1).map (fun g => s * g) = gaussianReal 0 (s ^ 2).toNNReal := by
    rw [gaussianReal_map_const_mul]
    congr 1
    · exact mul_zero s
    · rw [mul_one, Real.toNNReal_of_nonneg (sq_nonneg s)]
  have h2 : (gaussianReal 0 (s ^ 2).toNNReal).map (fun g => m + g) = gaussianReal m (s ^ 2).toNNReal := by
    rw [gaussianReal_map_const_add]
    congr 1
    exact zero_add m
  rw [← h2, ← h1, Measure.map_map (by fun_prop) (by fun_prop), Measure.map_apply (by fun_prop) hS]
  rfl

/-! ## C99 -/

/-- **C99.**  The number returned has the normal distribution with mean 0 and width 1. -/
theorem C99_gaussian (S : Set ℝ) (hS : MeasurableSet S) :
    probIn (sampleGaussian Real.log Real.sqrt) S = gaussianReal 0 1 S :=
  prob_polar measurable_id pairs_sample hS

/-- **C99.**  The loop ends with probability one. -/
theorem C99_ends : probIn (sampleGaussian Real.log Real.sqrt) Set.univ = 1 := by
  rw [C99_gaussian _ MeasurableSet.univ, measure_univ]

/-- **C99.**  The total kinetic energy drawn for a mass has the normal distribution whose mean is the rescaled average of the
heavier fragment's mass and whose width is that mass's. -/
theorem C99_tke (av sd : List ℝ) (acn : Int) (resc : ℝ) (A : Int) (t s : ℝ)
    (ht : av[(max A (acn - A)).toNat]? = some t) (hs : sd[(max A (acn - A)).toNat]? = some s)
    (hA : 0 ≤ A) (hc : A ≤ acn) (S : Set ℝ) (hS : MeasurableSet S) :
    probIn (drawTKE Real.log Real.sqrt av sd acn resc A) S = gaussianReal (resc * t) (s ^ 2).toNNReal S := by
  have hi : Yld.heavyIdx acn A = max A (acn - A) := by
    unfold Yld.heavyIdx
    split <;> omega
  have h0 : 0 ≤ max A (acn - A) := le_max_of_le_left hA
  have rd : ∀ {xs : List ℝ} {x : ℝ}, xs[(max A (acn - A)).toNat]? = some x → readAt xs (Yld.heavyIdx acn A) = .ok x := by
    intro xs x hx
    rw [hi, readAt_ok_iff]
    exact ⟨h0, hx⟩
  rw [prob_polar (φ := fun g => resc * t + s * g) (by fun_prop) (pairs_tke av sd acn resc A t s (rd ht) (rd hs)) hS]
  exact normal_image _ _ hS

/-- **C99.**  `normaldist` has the normal distribution of its arguments. -/
theorem C99_normaldist (m s : ℝ) (S : Set ℝ) (hS : MeasurableSet S) :
    probIn (normaldist Real.log Real.sqrt m s) S = gaussianReal m (s ^ 2).toNNReal S := by
  rw [prob_polar (φ := fun g => s * g + m) (by fun_prop) (pairs_normal m s) hS, ← normal_image _ _ hS]
  congr 1
  ext g
  simp only [Set.mem_preimage, add_comm]

/-- A mass of 100 in 236 uses the entries of mass 136. -/
example (S : Set ℝ) (hS : MeasurableSet S) :
    probIn (drawTKE Real.log Real.sqrt (List.replicate 200 170) (List.replicate 200 8) 236 1 100) S =
      gaussianReal 170 ((8 : ℝ) ^ 2).toNNReal S := by
  rw [C99_tke _ _ 236 1 100 170 8 (by rw [List.getElem?_replicate]; rfl) (by rw [List.getElem?_replicate]; rfl) (by norm_num)
    (by norm_num) S hS, one_mul]

/-- Positive and negative deviates are equally likely. -/
example : probIn (sampleGaussian Real.log Real.sqrt) (Set.Ioi 0) = probIn (sampleGaussian Real.log Real.sqrt) (Set.Iio 0) := by
  rw [C99_gaussian _ measurableSet_Ioi, C99_gaussian _ measurableSet_Iio]
  have h : (gaussianReal 0 1).map (fun x => -x) = gaussianReal 0 1 := by rw [gaussianReal_map_neg, neg_zero]
  conv_lhs => rw [← h]
  rw [Measure.map_apply measurable_neg measurableSet_Ioi]
  congr 1
  ext x
  simp

end CGMF.Props

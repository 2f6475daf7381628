import Mathlib.Analysis.SpecialFunctions.PolarCoord
import Mathlib.MeasureTheory.Function.JacobianOneDim
import Mathlib.Probability.Distributions.Gaussian.Real
import Verif.Model.Gauss
import Verif.Proofs.Pairs

/-! # The polar method gives the normal distribution -/

namespace CGMF.Law

open MeasureTheory ProbabilityTheory Real

/-- The value computed from a point of the disc. -/
noncomputable def polarValue (u : ℝ × ℝ) : ℝ := u.1 * √(-2 * log (u.1 * u.1 + u.2 * u.2) / (u.1 * u.1 + u.2 * u.2))

/-- The open unit disc without its centre. -/
def disc : Set (ℝ × ℝ) := {u | ¬ (u.1 * u.1 + u.2 * u.2 = 0 ∨ 1 ≤ u.1 * u.1 + u.2 * u.2)}

theorem measurable_disc : MeasurableSet disc := by
  have h : Measurable fun u : ℝ × ℝ => u.1 * u.1 + u.2 * u.2 := by fun_prop
  have h1 : MeasurableSet {u : ℝ × ℝ | u.1 * u.1 + u.2 * u.2 = 0} := h (measurableSet_singleton 0)
  have h2 : MeasurableSet {u : ℝ × ℝ | 1 ≤ u.1 * u.1 + u.2 * u.2} := h measurableSet_Ici
  exact (h1.union h2).compl

theorem measurable_polarValue : Measurable polarValue := by unfold polarValue; fun_prop

/-- Radius of the normal point belonging to a radius in the disc. -/
theorem radius_eq {ρ : ℝ} (h : 0 < ρ) : √(-2 * log (exp (-ρ ^ 2 / 4) ^ 2)) = ρ := by
  rw [log_pow, log_exp]
  rw [show -2 * (((2 : ℕ) : ℝ) * (-ρ ^ 2 / 4)) = ρ ^ 2 by push_cast; ring]
  exact sqrt_sq h.le

theorem polarValue_polar {r θ : ℝ} (hr : 0 < r) : polarValue (r * cos θ, r * sin θ) = √(-2 * log (r ^ 2)) * cos θ := by
  unfold polarValue
  have e : r * cos θ * (r * cos θ) + r * sin θ * (r * sin θ) = r ^ 2 := by
    have := cos_sq_add_sin_sq θ
    linear_combination r ^ 2 * this
  simp only
  rw [e, sqrt_div' _ (by positivity), sqrt_sq hr.le]
  field_simp

theorem disc_polar {r θ : ℝ} (hr : 0 < r) : (r * cos θ, r * sin θ) ∈ disc ↔ r < 1 := by
  have e : r * cos θ * (r * cos θ) + r * sin θ * (r * sin θ) = r ^ 2 := by
    have := cos_sq_add_sin_sq θ
    linear_combination r ^ 2 * this
  show ¬ (_ ∨ _) ↔ _
  simp only
  rw [e, not_or, not_le]
  constructor
  · rintro ⟨-, h⟩; nlinarith
  · intro h; exact ⟨by positivity, by nlinarith⟩

/-- `r = exp(-ρ²/4)` maps the half line onto the unit interval. -/
theorem image_exp : (fun ρ : ℝ => exp (-ρ ^ 2 / 4)) '' Set.Ioi 0 = Set.Ioo 0 1 := by
  ext r
  constructor
  · rintro ⟨ρ, hρ, rfl⟩
    have : (0 : ℝ) < ρ := hρ
    refine ⟨exp_pos _, ?_⟩
    rw [exp_lt_one_iff]
    have := pow_pos this 2
    linarith
  · rintro ⟨h0, h1⟩
    have hl := log_neg h0 h1
    refine ⟨√(-4 * log r), ?_, ?_⟩
    · exact sqrt_pos.2 (by linarith)
    · simp only
      rw [sq_sqrt (by linarith), show -(-4 * log r) / 4 = log r by ring, exp_log h0]

/-- Change of the radius. -/
theorem radial (g : ℝ → ENNReal) : ∫⁻ r in Set.Ioo 0 1, ENNReal.ofReal r * g (√(-2 * log (r ^ 2))) =
    ∫⁻ ρ in Set.Ioi 0, ENNReal.ofReal ρ * (ENNReal.ofReal (exp (-ρ ^ 2 / 2) / 2) * g ρ) := by
  rw [← image_exp]
  rw [lintegral_image_eq_lintegral_abs_deriv_mul measurableSet_Ioi (f' := fun ρ => exp (-ρ ^ 2 / 4) * (-(2 * ρ) / 4))]
  · apply setLIntegral_congr_fun measurableSet_Ioi
    intro ρ hρ
    have hρ : (0 : ℝ) < ρ := hρ
    simp only
    rw [radius_eq hρ, ← mul_assoc, ← mul_assoc, ← ENNReal.ofReal_mul (abs_nonneg _), ← ENNReal.ofReal_mul hρ.le]
    congr 2
    rw [abs_mul, abs_of_pos (exp_pos _), show -(2 * ρ) / 4 = -(ρ / 2) by ring, abs_neg, abs_of_pos (by positivity)]
    have : exp (-ρ ^ 2 / 2) = exp (-ρ ^ 2 / 4) * exp (-ρ ^ 2 / 4) := by rw [← exp_add]; congr 1; ring
    rw [this]
    ring
  · intro ρ _
    have h1 : HasDerivAt (fun ρ : ℝ => -ρ ^ 2 / 4) (-(2 * ρ) / 4) ρ := by
      have := ((hasDerivAt_pow 2 ρ).neg).div_const 4
      simpa using this
    exact h1.exp.hasDerivWithinAt
  · intro a ha b hb hab
    have ha : (0 : ℝ) < a := ha
    have hb : (0 : ℝ) < b := hb
    have := exp_injective hab
    nlinarith

/-- Area of the points of the disc whose value lies in `S`. -/
theorem disc_area {S : Set ℝ} (hS : MeasurableSet S) :
    volume (disc ∩ polarValue ⁻¹' S) = ENNReal.ofReal π * gaussianReal 0 1 S := by
  have hB : MeasurableSet (disc ∩ polarValue ⁻¹' S) := measurable_disc.inter (measurable_polarValue hS)
  set F : ℝ × ℝ → ENNReal := fun p => ENNReal.ofReal (exp (-(p.1 ^ 2 + p.2 ^ 2) / 2) / 2) * S.indicator 1 p.1 with hF
  have hFm : Measurable F := by
    have : Measurable fun p : ℝ × ℝ => S.indicator (1 : ℝ → ENNReal) p.1 := (measurable_one.indicator hS).comp measurable_fst
    exact (by fun_prop : Measurable fun p : ℝ × ℝ => ENNReal.ofReal (exp (-(p.1 ^ 2 + p.2 ^ 2) / 2) / 2)).mul this
  have step1 : volume (disc ∩ polarValue ⁻¹' S) = ∫⁻ p, F p := by
    rw [← lintegral_indicator_one hB, ← lintegral_comp_polarCoord_symm, ← lintegral_comp_polarCoord_symm F]
    have ht : polarCoord.target = Set.Ioi (0 : ℝ) ×ˢ Set.Ioo (-π) π := rfl
    rw [ht, Measure.volume_eq_prod]
    have m1 : Measurable fun p : ℝ × ℝ => ENNReal.ofReal p.1 • (disc ∩ polarValue ⁻¹' S).indicator (1 : ℝ × ℝ → ENNReal) (polarCoord.symm p) := by
      have : Measurable fun p : ℝ × ℝ => polarCoord.symm p := by
        show Measurable fun p : ℝ × ℝ => (p.1 * cos p.2, p.1 * sin p.2)
        fun_prop
      exact (by fun_prop : Measurable fun p : ℝ × ℝ => ENNReal.ofReal p.1).smul ((measurable_one.indicator hB).comp this)
    have m2 : Measurable fun p : ℝ × ℝ => ENNReal.ofReal p.1 • F (polarCoord.symm p) := by
      have : Measurable fun p : ℝ × ℝ => polarCoord.symm p := by
        show Measurable fun p : ℝ × ℝ => (p.1 * cos p.2, p.1 * sin p.2)
        fun_prop
      exact (by fun_prop : Measurable fun p : ℝ × ℝ => ENNReal.ofReal p.1).smul (hFm.comp this)
    rw [setLIntegral_prod_symm _ m1.aemeasurable.restrict, setLIntegral_prod_symm _ m2.aemeasurable.restrict]
    apply lintegral_congr
    intro θ
    have key := radial (fun ρ => S.indicator 1 (ρ * cos θ))
    have e1 : ∫⁻ r in Set.Ioi (0 : ℝ), ENNReal.ofReal r •
        (disc ∩ polarValue ⁻¹' S).indicator (1 : ℝ × ℝ → ENNReal) (polarCoord.symm (r, θ)) =
        ∫⁻ r in Set.Ioo 0 1, ENNReal.ofReal r * S.indicator 1 (√(-2 * log (r ^ 2)) * cos θ) := by
      rw [← lintegral_indicator measurableSet_Ioi, ← lintegral_indicator measurableSet_Ioo]
      apply lintegral_congr
      intro r
      by_cases hr : 0 < r
      · rw [Set.indicator_of_mem (show r ∈ Set.Ioi (0 : ℝ) from hr)]
        have hp : polarCoord.symm (r, θ) = (r * cos θ, r * sin θ) := rfl
        rw [hp]
        by_cases h1 : r < 1
        · rw [Set.indicator_of_mem (show r ∈ Set.Ioo (0 : ℝ) 1 from ⟨hr, h1⟩), smul_eq_mul]
          congr 1
          by_cases hx : √(-2 * log (r ^ 2)) * cos θ ∈ S
          · rw [Set.indicator_of_mem hx, Set.indicator_of_mem]
            · rfl
            · refine ⟨(disc_polar hr).2 h1, ?_⟩
              rw [Set.mem_preimage, polarValue_polar hr]
              exact hx
          · rw [Set.indicator_of_notMem hx, Set.indicator_of_notMem]
            rintro ⟨-, h2⟩
            rw [Set.mem_preimage, polarValue_polar hr] at h2
            exact hx h2
        · rw [Set.indicator_of_notMem (fun h : r ∈ Set.Ioo (0 : ℝ) 1 => h1 h.2), Set.indicator_of_notMem, smul_zero]
          rintro ⟨h2, -⟩
          exact h1 ((disc_polar hr).1 h2)
      · rw [Set.indicator_of_notMem (fun h : r ∈ Set.Ioi (0 : ℝ) => hr h), Set.indicator_of_notMem (fun h : r ∈ Set.Ioo (0 : ℝ) 1 => hr h.1)]
    rw [e1, key]
    apply setLIntegral_congr_fun measurableSet_Ioi
    intro ρ _
    have hp : polarCoord.symm (ρ, θ) = (ρ * cos θ, ρ * sin θ) := rfl
    simp only [hF, smul_eq_mul]
    rw [hp]
    simp only
    congr 5
    have := cos_sq_add_sin_sq θ
    linear_combination (ρ ^ 2 / 2) * this
  have step2 : ∀ x y : ℝ, F (x, y) = (ENNReal.ofReal π * (S.indicator (gaussianPDF 0 1) x)) * gaussianPDF 0 1 y := by
    intro x y
    simp only [hF]
    by_cases hx : x ∈ S
    · rw [Set.indicator_of_mem hx, Set.indicator_of_mem hx, Pi.one_apply, mul_one]
      unfold gaussianPDF gaussianPDFReal
      rw [← ENNReal.ofReal_mul pi_pos.le, ← ENNReal.ofReal_mul (by positivity)]
      congr 1
      simp only [NNReal.coe_one, mul_one, sub_zero]
      have h1 : (√(2 * π))⁻¹ * (√(2 * π))⁻¹ = (2 * π)⁻¹ := by
        rw [← mul_inv, mul_self_sqrt (by positivity)]
      have h2 : exp (-(x ^ 2 + y ^ 2) / 2) = exp (-x ^ 2 / 2) * exp (-y ^ 2 / 2) := by
        rw [← exp_add]; congr 1; ring
      rw [h2]
      have : π * ((√(2 * π))⁻¹ * exp (-x ^ 2 / 2)) * ((√(2 * π))⁻¹ * exp (-y ^ 2 / 2)) =
          π * ((√(2 * π))⁻¹ * (√(2 * π))⁻¹) * (exp (-x ^ 2 / 2) * exp (-y ^ 2 / 2)) := by ring
      rw [this, h1]
      have := pi_pos
      field_simp
    · rw [Set.indicator_of_notMem hx, Set.indicator_of_notMem hx, mul_zero, mul_zero, zero_mul]
  rw [step1, Measure.volume_eq_prod, lintegral_prod _ hFm.aemeasurable]
  have e2 : ∀ x, ∫⁻ y, F (x, y) = ENNReal.ofReal π * (S.indicator (gaussianPDF 0 1) x) := by
    intro x
    simp only [step2]
    rw [lintegral_const_mul _ (measurable_gaussianPDF 0 1), lintegral_gaussianPDF_eq_one 0 one_ne_zero, mul_one]
  simp only [e2]
  rw [lintegral_const_mul _ ((measurable_gaussianPDF 0 1).indicator hS), lintegral_indicator hS,
    gaussianReal_apply 0 one_ne_zero]

/-- Points of the square drawn from two uniform numbers. -/
theorem stream_disc {B : Set (ℝ × ℝ)} (hB : MeasurableSet B) (hd : B ⊆ disc) :
    stream {ω | (2 * ω 0 - 1, 2 * ω 1 - 1) ∈ B} = ENNReal.ofReal (1 / 4) * volume B := by
  have hm : Measurable fun x : ℝ × ℝ => (2 * x.1 - 1, 2 * x.2 - 1) := by fun_prop
  have h1 := stream_two (R := (fun x : ℝ × ℝ => (2 * x.1 - 1, 2 * x.2 - 1)) ⁻¹' B) (hm hB)
  have h2 : {x : ℝ × ℝ | (0 ≤ x.1 ∧ x.1 < 1) ∧ (0 ≤ x.2 ∧ x.2 < 1) ∧ x ∈ (fun x : ℝ × ℝ => (2 * x.1 - 1, 2 * x.2 - 1)) ⁻¹' B} =
      (fun x : ℝ × ℝ => (2 : ℝ) • x) ⁻¹' ((fun x => x + ((-1, -1) : ℝ × ℝ)) ⁻¹' B) := by
    ext ⟨a, b⟩
    have e : ((2 : ℝ) • ((a, b) : ℝ × ℝ)) + ((-1, -1) : ℝ × ℝ) = (2 * a - 1, 2 * b - 1) := by
      simp [sub_eq_add_neg]
    simp only [Set.mem_preimage, e]
    constructor
    · rintro ⟨-, -, h⟩; exact h
    · intro h
      have h3 : ¬ (_ ∨ _) := hd h
      simp only [not_or, not_le] at h3
      have h4 := h3.2
      refine ⟨⟨?_, ?_⟩, ⟨?_, ?_⟩, h⟩ <;> nlinarith [sq_nonneg (2 * a - 1), sq_nonneg (2 * b - 1)]
  refine h1.trans ?_
  rw [h2, Measure.addHaar_preimage_smul _ (two_ne_zero), measure_preimage_add_right]
  congr 2
  norm_num

theorem disc_volume : volume disc = ENNReal.ofReal π := by
  have := disc_area MeasurableSet.univ
  rw [Set.preimage_univ, Set.inter_univ, measure_univ, mul_one] at this
  exact this

/-- A loop that returns `φ` of the polar value. -/
theorem prob_polar {f : Rnd ℝ ℝ} {φ : ℝ → ℝ} (hφ : Measurable φ)
    (h : PairLoop {r | (2 * r.1 - 1, 2 * r.2 - 1) ∈ disc} (fun r => φ (polarValue (2 * r.1 - 1, 2 * r.2 - 1))) f)
    {S : Set ℝ} (hS : MeasurableSet S) : probIn f S = gaussianReal 0 1 (φ ⁻¹' S) := by
  have hm : Measurable fun x : ℝ × ℝ => (2 * x.1 - 1, 2 * x.2 - 1) := by fun_prop
  have hB : MeasurableSet (disc ∩ polarValue ⁻¹' (φ ⁻¹' S)) := measurable_disc.inter (measurable_polarValue (hφ hS))
  have h1 := prob_pair h (S := S) (hm measurable_disc) (hm hB)
  have h2 := stream_disc measurable_disc subset_rfl
  have h3 := stream_disc hB Set.inter_subset_left
  rw [disc_area (hφ hS)] at h3
  rw [disc_volume] at h2
  have h4 : probIn f S * (ENNReal.ofReal (1 / 4) * ENNReal.ofReal π) =
      ENNReal.ofReal (1 / 4) * (ENNReal.ofReal π * gaussianReal 0 1 (φ ⁻¹' S)) := by
    rw [← h2, ← h3]
    exact h1
  rw [mul_comm, ← mul_assoc (ENNReal.ofReal (1 / 4)) _ (gaussianReal 0 1 (φ ⁻¹' S))] at h4
  refine (ENNReal.mul_right_inj (a := ENNReal.ofReal (1 / 4) * ENNReal.ofReal π) ?_ ?_).1 h4
  · have := pi_pos
    refine mul_ne_zero ?_ ?_ <;> rw [Ne, ENNReal.ofReal_eq_zero, not_le] <;> positivity
  · exact ENNReal.mul_ne_top ENNReal.ofReal_ne_top ENNReal.ofReal_ne_top

end CGMF.Law

import Mathlib.Analysis.SpecialFunctions.PolarCoord
import Mathlib.MeasureTheory.Function.JacobianOneDim
import Mathlib.MeasureTheory.Integral.IntervalIntegral.Periodic
import Mathlib.MeasureTheory.Integral.Prod
import Mathlib.Analysis.SpecialFunctions.Integrals.Basic
import Verif.Spec.Isotropy
import Verif.Proofs.Pairs

/-! # Spherical coordinates -/

namespace CGMF.Isotropy

open MeasureTheory Real

/-- Direction with cosine `z` and azimuth `φ`. -/
noncomputable def dirOf (z φ : ℝ) : Fin 3 → ℝ := ![√(1 - z ^ 2) * cos φ, √(1 - z ^ 2) * sin φ, z]

theorem measurable_lenSq : Measurable lenSq := by unfold lenSq; fun_prop

theorem measurable_unitDir : Measurable unitDir := by
  refine measurable_pi_lambda _ fun i => ?_
  exact (measurable_pi_apply i).div (measurable_lenSq.sqrt)

theorem measurable_dirOf : Measurable fun p : ℝ × ℝ => dirOf p.1 p.2 := by
  refine measurable_pi_lambda _ fun i => ?_
  fin_cases i
  · show Measurable fun p : ℝ × ℝ => √(1 - p.1 ^ 2) * cos p.2
    fun_prop
  · show Measurable fun p : ℝ × ℝ => √(1 - p.1 ^ 2) * sin p.2
    fun_prop
  · show Measurable fun p : ℝ × ℝ => p.1
    fun_prop

/-- Affine change of variable. -/
theorem affine {b : ℝ} (hb : 0 < b) (a : ℝ) (g : ℝ → ENNReal) :
    ∫⁻ x in Set.Ioo a (a + b), g x = ENNReal.ofReal b * ∫⁻ r in Set.Ioo (0 : ℝ) 1, g (a + b * r) := by
  have himg : (fun r : ℝ => a + b * r) '' Set.Ioo 0 1 = Set.Ioo a (a + b) := by
    ext x
    constructor
    · rintro ⟨r, ⟨h0, h1⟩, rfl⟩
      constructor <;> simp only <;> nlinarith
    · rintro ⟨h0, h1⟩
      refine ⟨(x - a) / b, ⟨div_pos (by linarith) hb, ?_⟩, ?_⟩
      · rw [div_lt_one hb]; linarith
      · simp only
        field_simp
        ring
  rw [← himg, lintegral_image_eq_lintegral_abs_deriv_mul measurableSet_Ioo (f' := fun _ => b)]
  · simp only [abs_of_pos hb]
    exact lintegral_const_mul' _ _ ENNReal.ofReal_ne_top
  · intro r _
    have : HasDerivAt (fun r : ℝ => a + b * r) b r := by
      simpa using ((hasDerivAt_id r).const_mul b).const_add a
    exact this.hasDerivWithinAt
  · intro r _ q _ h
    have h : b * r = b * q := by simpa using h
    exact mul_left_cancel₀ hb.ne' h

/-- `z = cos θ` maps `(0,π)` onto `(-1,1)`. -/
theorem image_cos : cos '' Set.Ioo 0 π = Set.Ioo (-1) 1 := by
  ext z
  constructor
  · rintro ⟨θ, ⟨h0, h1⟩, rfl⟩
    constructor
    · have := cos_lt_cos_of_nonneg_of_le_pi h0.le le_rfl h1
      rwa [cos_pi] at this
    · have := cos_lt_cos_of_nonneg_of_le_pi le_rfl h1.le h0
      rwa [cos_zero] at this
  · rintro ⟨h0, h1⟩
    refine ⟨arccos z, ⟨arccos_pos.2 h1, ?_⟩, cos_arccos h0.le h1.le⟩
    refine lt_of_le_of_ne (arccos_le_pi z) fun h => ?_
    rw [arccos_eq_pi] at h
    linarith

/-- Integral over the cosine. -/
theorem cosine (g : ℝ → ENNReal) :
    ∫⁻ θ in Set.Ioo 0 π, ENNReal.ofReal (sin θ) * g (cos θ) = ∫⁻ z in Set.Ioo (-1) 1, g z := by
  rw [← image_cos, lintegral_image_eq_lintegral_abs_deriv_mul measurableSet_Ioo (f' := fun θ => -sin θ)]
  · apply setLIntegral_congr_fun measurableSet_Ioo
    intro θ hθ
    simp only [abs_neg, abs_of_pos (sin_pos_of_mem_Ioo hθ)]
  · intro θ _
    exact (hasDerivAt_cos θ).hasDerivWithinAt
  · exact injOn_cos.mono Set.Ioo_subset_Icc_self

/-- The half plane in polar coordinates. -/
theorem half (g : ℝ → ENNReal) (hg : Measurable g) (F : ℝ × ℝ → ENNReal) (hF : Measurable F)
    (h : ∀ r θ, 0 < r → 0 < θ → θ < π → F (r * cos θ, r * sin θ) = if r < 1 then g (cos θ) else 0) :
    ∫⁻ p : ℝ × ℝ, (if 0 < p.2 then ENNReal.ofReal p.2 * F p else 0) =
      ENNReal.ofReal (1 / 3) * ∫⁻ z in Set.Ioo (-1) 1, g z := by
  rw [← lintegral_comp_polarCoord_symm]
  have ht : polarCoord.target = Set.Ioi (0 : ℝ) ×ˢ Set.Ioo (-π) π := rfl
  have mF : Measurable fun p : ℝ × ℝ => if 0 < p.2 then ENNReal.ofReal p.2 * F p else 0 := by
    refine Measurable.ite (measurable_snd measurableSet_Ioi) ?_ measurable_const
    exact (by fun_prop : Measurable fun p : ℝ × ℝ => ENNReal.ofReal p.2).mul hF
  have ms : Measurable fun p : ℝ × ℝ => polarCoord.symm p := by
    show Measurable fun p : ℝ × ℝ => (p.1 * cos p.2, p.1 * sin p.2)
    fun_prop
  have m1 : Measurable fun p : ℝ × ℝ => ENNReal.ofReal p.1 •
      (if 0 < (polarCoord.symm p).2 then ENNReal.ofReal (polarCoord.symm p).2 * F (polarCoord.symm p) else 0) :=
    (by fun_prop : Measurable fun p : ℝ × ℝ => ENNReal.ofReal p.1).smul (mF.comp ms)
  rw [ht, Measure.volume_eq_prod, setLIntegral_prod _ m1.aemeasurable.restrict]
  have inner : ∀ r ∈ Set.Ioi (0 : ℝ), ∫⁻ θ in Set.Ioo (-π) π, ENNReal.ofReal r •
      (if 0 < (polarCoord.symm (r, θ)).2 then ENNReal.ofReal (polarCoord.symm (r, θ)).2 * F (polarCoord.symm (r, θ)) else 0) =
      (Set.Ioo 0 1).indicator (fun r => ENNReal.ofReal (r ^ 2) * ∫⁻ z in Set.Ioo (-1) 1, g z) r := by
    intro r hr
    have hr : 0 < r := hr
    have e : ∫⁻ θ in Set.Ioo (-π) π, ENNReal.ofReal r •
        (if 0 < (polarCoord.symm (r, θ)).2 then ENNReal.ofReal (polarCoord.symm (r, θ)).2 * F (polarCoord.symm (r, θ)) else 0) =
        ∫⁻ θ in Set.Ioo 0 π, ENNReal.ofReal (r ^ 2) * (ENNReal.ofReal (sin θ) * (if r < 1 then g (cos θ) else 0)) := by
      rw [← lintegral_indicator measurableSet_Ioo, ← lintegral_indicator measurableSet_Ioo]
      apply lintegral_congr
      intro θ
      have hp : polarCoord.symm (r, θ) = (r * cos θ, r * sin θ) := rfl
      by_cases hθ : θ ∈ Set.Ioo 0 π
      · have hs := sin_pos_of_mem_Ioo hθ
        rw [Set.indicator_of_mem hθ, Set.indicator_of_mem (show θ ∈ Set.Ioo (-π) π from ⟨by linarith [hθ.1, pi_pos], hθ.2⟩),
          hp, if_pos (by positivity), h r θ hr hθ.1 hθ.2, smul_eq_mul, ENNReal.ofReal_mul hr.le, sq, ENNReal.ofReal_mul hr.le]
        ring
      · rw [Set.indicator_of_notMem hθ]
        by_cases h1 : θ ∈ Set.Ioo (-π) π
        · rw [Set.indicator_of_mem h1, hp, if_neg, smul_zero]
          have : θ ≤ 0 := by
            by_contra h2
            exact hθ ⟨not_le.1 h2, h1.2⟩
          have := sin_nonpos_of_nonpos_of_neg_pi_le this h1.1.le
          simp only [not_lt]
          exact mul_nonpos_of_nonneg_of_nonpos hr.le this
        · rw [Set.indicator_of_notMem h1]
    rw [e, lintegral_const_mul' _ _ ENNReal.ofReal_ne_top]
    by_cases h1 : r < 1
    · rw [Set.indicator_of_mem (show r ∈ Set.Ioo (0 : ℝ) 1 from ⟨hr, h1⟩)]
      simp only [if_pos h1]
      rw [cosine]
    · rw [Set.indicator_of_notMem (fun h : r ∈ Set.Ioo (0 : ℝ) 1 => h1 h.2)]
      simp only [if_neg h1, mul_zero, lintegral_zero]
  rw [setLIntegral_congr_fun measurableSet_Ioi inner, setLIntegral_indicator measurableSet_Ioo,
    Set.inter_eq_left.2 (fun x hx => hx.1), lintegral_mul_const _ (by fun_prop)]
  congr 1
  rw [← ofReal_integral_eq_lintegral_ofReal]
  · rw [← integral_Ioc_eq_integral_Ioo, ← intervalIntegral.integral_of_le zero_le_one, integral_pow]
    norm_num
  · exact ((continuous_pow 2).integrableOn_Icc).mono_set Set.Ioo_subset_Icc_self
  · exact Filter.Eventually.of_forall fun x => sq_nonneg x

/-- Points of the ball with direction in `S`. -/
def cone (S : Set (Fin 3 → ℝ)) : Set (Fin 3 → ℝ) := {x | x ≠ 0 ∧ lenSq x < 1 ∧ unitDir x ∈ S}

theorem measurable_cone {S : Set (Fin 3 → ℝ)} (hS : MeasurableSet S) : MeasurableSet (cone S) :=
  (measurableSet_singleton (0 : Fin 3 → ℝ)).compl.inter
    ((measurable_lenSq measurableSet_Iio).inter (measurable_unitDir hS))

/-- The third coordinate and the other two. -/
theorem split3 : MeasurePreserving (fun x : Fin 3 → ℝ => (x 2, (x 0, x 1))) volume volume := by
  have h1 := volume_preserving_piFinSuccAbove (fun _ : Fin 3 => ℝ) 2
  have h2 := (MeasurePreserving.id (volume : Measure ℝ)).prod (volume_preserving_finTwoArrow ℝ)
  have h3 := h2.comp h1
  exact h3

/-- Volume in terms of the coordinates. -/
theorem volume3 {B : Set (Fin 3 → ℝ)} (hB : MeasurableSet B) :
    volume B = ∫⁻ z, ∫⁻ p : ℝ × ℝ, B.indicator 1 ![p.1, p.2, z] := by
  have hm : Measurable fun q : ℝ × ℝ × ℝ => (![q.2.1, q.2.2, q.1] : Fin 3 → ℝ) := by
    refine measurable_pi_lambda _ fun i => ?_
    fin_cases i
    · show Measurable fun q : ℝ × ℝ × ℝ => q.2.1
      fun_prop
    · show Measurable fun q : ℝ × ℝ × ℝ => q.2.2
      fun_prop
    · show Measurable fun q : ℝ × ℝ × ℝ => q.1
      fun_prop
  have mB : Measurable fun q : ℝ × ℝ × ℝ => B.indicator (1 : (Fin 3 → ℝ) → ENNReal) ![q.2.1, q.2.2, q.1] :=
    (measurable_one.indicator hB).comp hm
  rw [← lintegral_prod (μ := volume) (ν := volume) (fun q : ℝ × ℝ × ℝ => B.indicator (1 : (Fin 3 → ℝ) → ENNReal) ![q.2.1, q.2.2, q.1])
    mB.aemeasurable, ← Measure.volume_eq_prod, ← split3.lintegral_comp mB, ← lintegral_indicator_one hB]
  apply lintegral_congr
  intro x
  congr 1
  ext i
  fin_cases i <;> rfl

/-- Direction in spherical coordinates. -/
theorem unitDir_polar {r θ φ : ℝ} (hr : 0 < r) (h0 : 0 < θ) (h1 : θ < π) :
    lenSq ![r * sin θ * cos φ, r * sin θ * sin φ, r * cos θ] = r ^ 2 ∧
    unitDir ![r * sin θ * cos φ, r * sin θ * sin φ, r * cos θ] = dirOf (cos θ) φ := by
  have hl : lenSq ![r * sin θ * cos φ, r * sin θ * sin φ, r * cos θ] = r ^ 2 := by
    show (r * sin θ * cos φ) ^ 2 + (r * sin θ * sin φ) ^ 2 + (r * cos θ) ^ 2 = _
    have e1 := cos_sq_add_sin_sq θ
    have e2 := cos_sq_add_sin_sq φ
    linear_combination r ^ 2 * sin θ ^ 2 * e2 + r ^ 2 * e1
  refine ⟨hl, ?_⟩
  have hs : √(1 - cos θ ^ 2) = sin θ := by
    rw [← sin_sq, sqrt_sq (sin_pos_of_mem_Ioo ⟨h0, h1⟩).le]
  ext i
  unfold unitDir
  rw [hl, sqrt_sq hr.le]
  unfold dirOf
  rw [hs]
  fin_cases i
  · show r * sin θ * cos φ / r = sin θ * cos φ
    field_simp
  · show r * sin θ * sin φ / r = sin θ * sin φ
    field_simp
  · show r * cos θ / r = cos θ
    field_simp

/-- Volume of a cone. -/
theorem cone_volume {S : Set (Fin 3 → ℝ)} (hS : MeasurableSet S) : volume (cone S) =
    ENNReal.ofReal (1 / 3) * ∫⁻ φ in Set.Ioo (-π) π, ∫⁻ z in Set.Ioo (-1) 1, S.indicator 1 (dirOf z φ) := by
  have hC := measurable_cone hS
  rw [volume3 hC]
  have hm : Measurable fun q : ℝ × ℝ × ℝ => (![q.2.1 * cos q.2.2, q.2.1 * sin q.2.2, q.1] : Fin 3 → ℝ) := by
    refine measurable_pi_lambda _ fun i => ?_
    fin_cases i
    · show Measurable fun q : ℝ × ℝ × ℝ => q.2.1 * cos q.2.2
      fun_prop
    · show Measurable fun q : ℝ × ℝ × ℝ => q.2.1 * sin q.2.2
      fun_prop
    · show Measurable fun q : ℝ × ℝ × ℝ => q.1
      fun_prop
  have mC : Measurable fun q : ℝ × ℝ × ℝ => (cone S).indicator (1 : (Fin 3 → ℝ) → ENNReal) ![q.2.1 * cos q.2.2, q.2.1 * sin q.2.2, q.1] :=
    (measurable_one.indicator hC).comp hm
  have ht : polarCoord.target = Set.Ioi (0 : ℝ) ×ˢ Set.Ioo (-π) π := rfl
  -- polar coordinates in the plane
  have e1 : ∀ z : ℝ, ∫⁻ p : ℝ × ℝ, (cone S).indicator (1 : (Fin 3 → ℝ) → ENNReal) ![p.1, p.2, z] =
      ∫⁻ φ in Set.Ioo (-π) π, ∫⁻ s in Set.Ioi (0 : ℝ), ENNReal.ofReal s *
        (cone S).indicator (1 : (Fin 3 → ℝ) → ENNReal) ![s * cos φ, s * sin φ, z] := by
    intro z
    rw [← lintegral_comp_polarCoord_symm, ht, Measure.volume_eq_prod]
    have m1 : Measurable fun p : ℝ × ℝ => ENNReal.ofReal p.1 •
        (cone S).indicator (1 : (Fin 3 → ℝ) → ENNReal) ![(polarCoord.symm p).1, (polarCoord.symm p).2, z] := by
      have : Measurable fun p : ℝ × ℝ => (cone S).indicator (1 : (Fin 3 → ℝ) → ENNReal) ![p.1 * cos p.2, p.1 * sin p.2, z] :=
        mC.comp (by fun_prop : Measurable fun p : ℝ × ℝ => (z, p))
      exact (by fun_prop : Measurable fun p : ℝ × ℝ => ENNReal.ofReal p.1).smul this
    rw [setLIntegral_prod_symm _ m1.aemeasurable.restrict]
    rfl
  simp only [e1]
  have m2 : Measurable fun q : (ℝ × ℝ) × ℝ => ENNReal.ofReal q.2 *
      (cone S).indicator (1 : (Fin 3 → ℝ) → ENNReal) ![q.2 * cos q.1.2, q.2 * sin q.1.2, q.1.1] :=
    (by fun_prop : Measurable fun q : (ℝ × ℝ) × ℝ => ENNReal.ofReal q.2).mul
      (mC.comp (by fun_prop : Measurable fun q : (ℝ × ℝ) × ℝ => (q.1.1, (q.2, q.1.2))))
  have m3 : Measurable fun p : ℝ × ℝ => ∫⁻ s in Set.Ioi (0 : ℝ), ENNReal.ofReal s *
        (cone S).indicator (1 : (Fin 3 → ℝ) → ENNReal) ![s * cos p.2, s * sin p.2, p.1] :=
    Measurable.lintegral_prod_right' (f := fun q : (ℝ × ℝ) × ℝ => ENNReal.ofReal q.2 *
      (cone S).indicator (1 : (Fin 3 → ℝ) → ENNReal) ![q.2 * cos q.1.2, q.2 * sin q.1.2, q.1.1]) m2
  rw [lintegral_lintegral_swap (μ := volume) (ν := volume.restrict (Set.Ioo (-π) π)) m3.aemeasurable,
    ← lintegral_const_mul' _ _ ENNReal.ofReal_ne_top]
  apply lintegral_congr
  intro φ
  set F : ℝ × ℝ → ENNReal := fun p => (cone S).indicator 1 ![p.2 * cos φ, p.2 * sin φ, p.1] with hF
  have mF : Measurable F := mC.comp (by fun_prop : Measurable fun p : ℝ × ℝ => (p.1, (p.2, φ)))
  have mg : Measurable fun z => S.indicator (1 : (Fin 3 → ℝ) → ENNReal) (dirOf z φ) :=
    (measurable_one.indicator hS).comp (measurable_dirOf.comp (by fun_prop : Measurable fun z : ℝ => (z, φ)))
  have key := half (fun z => S.indicator 1 (dirOf z φ)) mg F mF (by
    intro r θ hr h0 h1
    obtain ⟨hl, hd⟩ := unitDir_polar (φ := φ) hr h0 h1
    have hne : ![r * sin θ * cos φ, r * sin θ * sin φ, r * cos θ] ≠ 0 := by
      intro h
      rw [h] at hl
      have : lenSq 0 = 0 := by unfold lenSq; simp
      rw [this] at hl
      have := pow_pos hr 2
      linarith
    have hiff : ![r * sin θ * cos φ, r * sin θ * sin φ, r * cos θ] ∈ cone S ↔ r < 1 ∧ dirOf (cos θ) φ ∈ S := by
      show (_ ∧ _ ∧ _) ↔ _
      rw [hl, hd]
      constructor
      · rintro ⟨-, h2, h3⟩
        exact ⟨by nlinarith, h3⟩
      · rintro ⟨h2, h3⟩
        exact ⟨hne, by nlinarith, h3⟩
    simp only [hF]
    by_cases h2 : r < 1
    · rw [if_pos h2]
      by_cases h3 : dirOf (cos θ) φ ∈ S
      · rw [Set.indicator_of_mem h3, Set.indicator_of_mem (hiff.2 ⟨h2, h3⟩)]
        rfl
      · rw [Set.indicator_of_notMem h3, Set.indicator_of_notMem (fun h => h3 (hiff.1 h).2)]
    · rw [if_neg h2, Set.indicator_of_notMem (fun h => h2 (hiff.1 h).1)])
  rw [← key, Measure.volume_eq_prod, lintegral_prod]
  · apply lintegral_congr
    intro z
    rw [← lintegral_indicator measurableSet_Ioi]
    apply lintegral_congr
    intro s
    by_cases hs : 0 < s
    · rw [Set.indicator_of_mem (show s ∈ Set.Ioi (0 : ℝ) from hs), if_pos hs]
    · rw [Set.indicator_of_notMem (fun h : s ∈ Set.Ioi (0 : ℝ) => hs h), if_neg hs]
  · refine (Measurable.ite (measurable_snd measurableSet_Ioi) ?_ measurable_const).aemeasurable
    exact (by fun_prop : Measurable fun p : ℝ × ℝ => ENNReal.ofReal p.2).mul mF

/-- The azimuth from `0` to `2π`. -/
theorem full_turn (g : ℝ → ENNReal) (hg : ∀ φ, g (φ + 2 * π) = g φ) :
    ∫⁻ φ in Set.Ioo (-π) π, g φ = ∫⁻ φ in Set.Ioo 0 (2 * π), g φ := by
  have h2 : (0 : ℝ) < 2 * π := by linarith [pi_pos]
  have a := isAddFundamentalDomain_Ioc h2 (-π)
  have b := isAddFundamentalDomain_Ioc h2 0
  have hp : Function.Periodic g (2 * π) := hg
  have := a.setLIntegral_eq b g (by
    rintro ⟨x, hx⟩ y
    obtain ⟨n, rfl⟩ := AddSubgroup.mem_zmultiples_iff.1 hx
    show g (n • (2 * π) + y) = g y
    rw [add_comm]
    exact hp.zsmul n y)
  rw [show -π + 2 * π = π by ring, zero_add] at this
  rwa [← Measure.restrict_congr_set (Ioo_ae_eq_Ioc (μ := volume) (a := -π) (b := π)),
    ← Measure.restrict_congr_set (Ioo_ae_eq_Ioc (μ := volume) (a := 0) (b := 2 * π))] at this

theorem dirOf_period (z φ : ℝ) : dirOf z (φ + 2 * π) = dirOf z φ := by
  unfold dirOf
  rw [cos_add_two_pi, sin_add_two_pi]

theorem measurable_dirOf' {a b : ℝ × ℝ → ℝ} (ha : Measurable a) (hb : Measurable b) : Measurable fun x => dirOf (a x) (b x) :=
  measurable_dirOf.comp (ha.prodMk hb)

theorem stream_dir {S : Set (Fin 3 → ℝ)} (hS : MeasurableSet S) :
    Law.stream {ω | dirOf (2 * ω 1 - 1) (2 * π * ω 0) ∈ S} =
      ∫⁻ r in Set.Ioo (0 : ℝ) 1, ∫⁻ q in Set.Ioo (0 : ℝ) 1, S.indicator 1 (dirOf (2 * q - 1) (2 * π * r)) := by
  have h1 : Measurable fun x : ℝ × ℝ => 2 * x.2 - 1 := (measurable_snd.const_mul 2).sub_const 1
  have h2 : Measurable fun x : ℝ × ℝ => 2 * π * x.1 := measurable_fst.const_mul (2 * π)
  have hm : Measurable fun x : ℝ × ℝ => dirOf (2 * x.2 - 1) (2 * π * x.1) := measurable_dirOf' h1 h2
  set B : Set (ℝ × ℝ) := (fun x : ℝ × ℝ => dirOf (2 * x.2 - 1) (2 * π * x.1)) ⁻¹' S with hBd
  have hB : MeasurableSet B := hm hS
  have h3 : Law.stream {ω | dirOf (2 * ω 1 - 1) (2 * π * ω 0) ∈ S} = _ := Law.stream_two hB
  rw [h3]
  have h4 : {x : ℝ × ℝ | (0 ≤ x.1 ∧ x.1 < 1) ∧ (0 ≤ x.2 ∧ x.2 < 1) ∧ x ∈ B} = B ∩ (Set.Ico 0 1 ×ˢ Set.Ico 0 1) := by
    ext ⟨a, b⟩
    simp only [Set.mem_ofPred_eq, Set.mem_inter_iff, Set.mem_prod, Set.mem_Ico]
    tauto
  rw [h4, ← Measure.restrict_apply hB, ← lintegral_indicator_one hB, Measure.volume_eq_prod,
    setLIntegral_prod _ (measurable_one.indicator hB).aemeasurable.restrict,
    ← Measure.restrict_congr_set (Ioo_ae_eq_Ico (μ := volume) (a := (0 : ℝ)) (b := 1))]
  rfl

/-- Volume of a cone from two uniform numbers. -/
theorem cone_stream {S : Set (Fin 3 → ℝ)} (hS : MeasurableSet S) : volume (cone S) =
    ENNReal.ofReal (4 * π / 3) * Law.stream {ω | dirOf (2 * ω 1 - 1) (2 * π * ω 0) ∈ S} := by
  have h2 : (0 : ℝ) < 2 * π := by linarith [pi_pos]
  rw [cone_volume hS, full_turn _ (fun φ => by simp only [dirOf_period]), stream_dir hS]
  have a1 := affine h2 0 (fun φ => ∫⁻ z in Set.Ioo (-1) 1, S.indicator 1 (dirOf z φ))
  rw [zero_add] at a1
  rw [a1]
  have a2 : ∀ φ, ∫⁻ z in Set.Ioo (-1) 1, S.indicator (1 : (Fin 3 → ℝ) → ENNReal) (dirOf z φ) =
      ENNReal.ofReal 2 * ∫⁻ q in Set.Ioo (0 : ℝ) 1, S.indicator 1 (dirOf (2 * q - 1) φ) := by
    intro φ
    have := affine (b := 2) two_pos (-1) (fun z => S.indicator 1 (dirOf z φ))
    rw [show (-1 : ℝ) + 2 = 1 by norm_num] at this
    rw [this]
    simp only [neg_add_eq_sub]
  simp only [a2, zero_add]
  rw [lintegral_const_mul' _ _ ENNReal.ofReal_ne_top, ← mul_assoc, ← mul_assoc, ← ENNReal.ofReal_mul (by norm_num),
    ← ENNReal.ofReal_mul (by positivity)]
  congr 2
  ring

theorem lenSq_nonneg (x : Fin 3 → ℝ) : 0 ≤ lenSq x := by unfold lenSq; positivity

theorem lenSq_zero {x : Fin 3 → ℝ} : lenSq x = 0 ↔ x = 0 := by
  constructor
  · intro h
    unfold lenSq at h
    have h0 := sq_nonneg (x 0)
    have h1 := sq_nonneg (x 1)
    have h2 := sq_nonneg (x 2)
    have e0 : x 0 = 0 := pow_eq_zero_iff (two_ne_zero) |>.1 (by linarith)
    have e1 : x 1 = 0 := pow_eq_zero_iff (two_ne_zero) |>.1 (by linarith)
    have e2 : x 2 = 0 := pow_eq_zero_iff (two_ne_zero) |>.1 (by linarith)
    ext i
    fin_cases i
    · exact e0
    · exact e1
    · exact e2
  · rintro rfl
    unfold lenSq
    simp

/-- The unit ball. -/
theorem ball_volume : volume {x : Fin 3 → ℝ | lenSq x < 1} = ENNReal.ofReal (4 * π / 3) := by
  have h1 := cone_stream MeasurableSet.univ
  simp only [Set.mem_univ] at h1
  have h2 : {ω : ℕ → ℝ | True} = Set.univ := rfl
  rw [h2, measure_univ, mul_one] at h1
  rw [← h1]
  have h3 : {x : Fin 3 → ℝ | lenSq x < 1} = cone Set.univ ∪ {0} := by
    ext x
    simp only [cone, Set.mem_univ, and_true, Set.mem_ofPred_eq, Set.mem_union, Set.mem_singleton_iff]
    constructor
    · intro h
      by_cases hx : x = 0
      · exact .inr hx
      · exact .inl ⟨hx, h⟩
    · rintro (h | rfl)
      · exact h.2
      · rw [lenSq_zero.2 rfl]; exact one_pos
  rw [h3]
  refine le_antisymm ((measure_union_le _ _).trans ?_) (measure_mono Set.subset_union_left)
  rw [measure_singleton, add_zero]

/-- The solid angle is the probability of a direction made of two uniform numbers. -/
theorem solid_eq {S : Set (Fin 3 → ℝ)} (hS : MeasurableSet S) :
    Law.stream {ω | dirOf (2 * ω 1 - 1) (2 * π * ω 0) ∈ S} = solid S := by
  have h : ENNReal.ofReal (4 * π / 3) ≠ 0 := by
    rw [Ne, ENNReal.ofReal_eq_zero, not_le]
    have := pi_pos
    positivity
  unfold solid
  rw [ball_volume]
  have h1 : volume {x : Fin 3 → ℝ | x ≠ 0 ∧ lenSq x < 1 ∧ unitDir x ∈ S} = _ := cone_stream hS
  rw [h1, ENNReal.mul_div_right_comm, ENNReal.div_self h ENNReal.ofReal_ne_top, one_mul]

/-- Solid angles do not change under rotations and reflections. -/
theorem solid_rotate (R : (Fin 3 → ℝ) →ₗ[ℝ] (Fin 3 → ℝ)) (hR : ∀ x, lenSq (R x) = lenSq x) (S : Set (Fin 3 → ℝ)) :
    solid (R ⁻¹' S) = solid S := by
  have hinj : ∀ x, R x = 0 → x = 0 := by
    intro x hx
    rw [← lenSq_zero, ← hR, hx]
    exact lenSq_zero.2 rfl
  have hdet : LinearMap.det R ≠ 0 := by
    intro h
    have := LinearMap.bot_lt_ker_of_det_eq_zero h
    exact this.ne' (LinearMap.ker_eq_bot'.2 hinj)
  have hb : R ⁻¹' {x | lenSq x < 1} = {x | lenSq x < 1} := by
    ext x
    simp only [Set.mem_preimage, Set.mem_ofPred_eq, hR]
  have h1 := Measure.addHaar_preimage_linearMap volume hdet {x : Fin 3 → ℝ | lenSq x < 1}
  have hpos : ENNReal.ofReal (4 * π / 3) ≠ 0 := by
    rw [Ne, ENNReal.ofReal_eq_zero, not_le]
    have := pi_pos
    positivity
  rw [hb, ball_volume] at h1
  have h2 : ENNReal.ofReal |(LinearMap.det R)⁻¹| = 1 := by
    have : 1 * ENNReal.ofReal (4 * π / 3) = ENNReal.ofReal |(LinearMap.det R)⁻¹| * ENNReal.ofReal (4 * π / 3) := by
      rw [one_mul]; exact h1
    exact ((ENNReal.mul_left_inj hpos ENNReal.ofReal_ne_top).1 this).symm
  have h3 := Measure.addHaar_preimage_linearMap volume hdet {x : Fin 3 → ℝ | x ≠ 0 ∧ lenSq x < 1 ∧ unitDir x ∈ S}
  rw [h2, one_mul] at h3
  unfold solid
  rw [← h3]
  congr 2
  ext x
  simp only [Set.mem_preimage, Set.mem_ofPred_eq, hR, ne_eq]
  have hu : R (unitDir x) = unitDir (R x) := by
    have : unitDir x = (√(lenSq x))⁻¹ • x := by
      ext i
      simp only [unitDir, Pi.smul_apply, smul_eq_mul, div_eq_inv_mul]
    rw [this, map_smul]
    ext i
    simp only [unitDir, Pi.smul_apply, smul_eq_mul, div_eq_inv_mul, hR]
  rw [hu]
  have : x = 0 ↔ R x = 0 := ⟨fun h => by rw [h, map_zero], hinj x⟩
  rw [this]

end CGMF.Isotropy

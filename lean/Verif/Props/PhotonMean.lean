import Verif.Props.PhotonSpectrum
import Verif.Props.MeanRecoil
import Mathlib.Analysis.SpecialFunctions.Log.Deriv
import Mathlib.Analysis.SpecialFunctions.Arsinh

/-!
# C161: average laboratory energy of photons

Averages are over independent uniform random numbers, as for C160.
-/

namespace CGMF.Props

open MeasureTheory ProbabilityTheory Real CGMF.Law CGMF.Kin CGMF.Isotropy CGMF.Spec

theorem inv_integral {b : ℝ} (b0 : 0 < b) (b1 : b < 1) (C : ℝ) : ∫ x in (0 : ℝ)..1, C / (1 - b * (2 * x - 1)) = C * (log ((1 + b) / (1 - b)) / (2 * b)) := by
  have pos : ∀ x ∈ Set.uIcc (0 : ℝ) 1, 0 < 1 - b * (2 * x - 1) := by
    intro x hx
    rw [Set.uIcc_of_le zero_le_one] at hx
    nlinarith [hx.1, hx.2]
  have d : ∀ x ∈ Set.uIcc (0 : ℝ) 1, HasDerivAt (fun x => -(C / (2 * b)) * log (1 - b * (2 * x - 1))) (C / (1 - b * (2 * x - 1))) x := by
    intro x hx
    have p := pos x hx
    have h1 : HasDerivAt (fun x : ℝ => 1 - b * (2 * x - 1)) (-(b * (2 * 1))) x :=
      ((((hasDerivAt_id x).const_mul 2).sub_const 1).const_mul b).const_sub 1
    have h2 := (h1.log p.ne').const_mul (-(C / (2 * b)))
    refine h2.congr_deriv ?_
    field_simp
  rw [intervalIntegral.integral_eq_sub_of_hasDerivAt d (ContinuousOn.intervalIntegrable
    (continuousOn_const.div (by fun_prop) fun x hx => (pos x hx).ne'))]
  rw [show (1 : ℝ) - b * (2 * 1 - 1) = 1 - b by ring, show (1 : ℝ) - b * (2 * 0 - 1) = 1 + b by ring, log_div (by linarith) (by linarith)]
  field_simp
  ring

/-- The average as recorded. -/
theorem photon_mean (k : Const) {pf mf eg : ℝ} (h0 : 0 < pf) (h1 : pf < mf) :
    mean (photonBoost k pf mf eg) (·.energy) = eg * √(1 - pf / mf * (pf / mf)) * (log ((1 + pf / mf) / (1 - pf / mf)) / (2 * (pf / mf))) := by
  have hmf : 0 < mf := h0.trans h1
  have b1 : pf / mf < 1 := (div_lt_one hmf).2 h1
  have b0 : 0 < pf / mf := div_pos h0 hmf
  rw [← inv_integral b0 b1, ← coord_mean 1 (g := fun x => eg * √(1 - pf / mf * (pf / mf)) / (1 - pf / mf * (2 * x - 1))) (by fun_prop)]
  refine mean_run (local_photon k pf mf eg) (n := 2) fun ω hω => ?_
  have r1 := hω 1
  have d0 : -1 ≤ 2 * ω 1 - 1 := by linarith [r1.1]
  have d1 : 2 * ω 1 - 1 ≤ 1 := by linarith [r1.2]
  have hcos := cos_arccos d0 d1
  have hden : 0 < 1 - pf / mf * (2 * ω 1 - 1) := by nlinarith
  unfold photonBoost
  rw [show pre ω 2 = ω 0 :: [ω 1] from rfl, Rnd.bind_of_ok (Rnd.draw_cons _ _), Rnd.bind_of_ok (Rnd.draw_cons _ _),
    Rnd.bind_of_ok (needs_run ⟨d0, d1⟩ _), Rnd.bind_of_ok (needs_run hmf.ne' _), Rnd.bind_of_ok (sqrtR_run (by nlinarith) _),
    Rnd.bind_of_ok (needs_run (by rw [hcos]; exact hden.ne') _), hcos]
  exact ⟨_, rfl, rfl⟩

/-- What is intended: on average the energy is larger by the Lorentz factor. -/
theorem doppler_mean (β : V3) (eg : ℝ) : ∫ ω, doppler β (dirAt 0 ω) eg ∂stream = eg / √(1 - lenSq β) := by
  have e : (fun ω => doppler β (dirAt 0 ω) eg) = fun ω => eg / √(1 - lenSq β) +
      (eg / √(1 - lenSq β) * β 0 * dirAt 0 ω 0 + eg / √(1 - lenSq β) * β 1 * dirAt 0 ω 1 + eg / √(1 - lenSq β) * β 2 * dirAt 0 ω 2) := by
    funext ω
    rw [doppler, dot_self, dot, Fin.sum_univ_three]
    ring
  have i : ∀ i, Integrable (fun ω => eg / √(1 - lenSq β) * β i * dirAt 0 ω i) stream := fun i => (dirAt_integrable 0 i).const_mul _
  have i2 : Integrable (fun ω => eg / √(1 - lenSq β) * β 0 * dirAt 0 ω 0 + eg / √(1 - lenSq β) * β 1 * dirAt 0 ω 1) stream := (i 0).add (i 1)
  have i3 : Integrable (fun ω => eg / √(1 - lenSq β) * β 0 * dirAt 0 ω 0 + eg / √(1 - lenSq β) * β 1 * dirAt 0 ω 1 +
    eg / √(1 - lenSq β) * β 2 * dirAt 0 ω 2) stream := i2.add (i 2)
  rw [e, integral_add (integrable_const _) i3, integral_add i2 (i 2), integral_add (i 0) (i 1)]
  simp [integral_const_mul, dirAt_mean]

/-- **C161 (part that holds).**  With the speed `b` of the fragment, the average laboratory energy is at least `eg √(1-b²)`.  Missing: it should
be `eg/√(1-b²)` (`doppler_mean`); see the refutation. -/
theorem C161_partial (k : Const) {pf mf eg : ℝ} (h0 : 0 < pf) (h1 : pf < mf) (he : 0 < eg) :
    eg * √(1 - pf / mf * (pf / mf)) ≤ mean (photonBoost k pf mf eg) (·.energy) := by
  have hmf : 0 < mf := h0.trans h1
  have b1 : pf / mf < 1 := (div_lt_one hmf).2 h1
  have b0 : 0 < pf / mf := div_pos h0 hmf
  rw [photon_mean k h0 h1]
  refine le_mul_of_one_le_right (by positivity) ?_
  rw [one_le_div (by positivity)]
  have := sum_range_le_log_div b0.le b1 1
  simp only [Finset.sum_range_one, mul_zero, zero_add, pow_one, Nat.cast_zero, div_one] at this
  linarith

/-- **C161, refuted.**  For every speed of the fragment photons lose energy on average, where over the directions of an isotropic emission the Doppler
shift gives more energy on average. -/
theorem C161_refuted (k : Const) {p : V3} {pf mf eg : ℝ} (hp : pf = √(lenSq p)) (h0 : 0 < pf) (h1 : pf < mf) (he : 0 < eg) :
    mean (photonBoost k pf mf eg) (·.energy) < eg ∧ eg < ∫ ω, doppler (fun i => p i / mf) (dirAt 0 ω) eg ∂stream := by
  have hmf : 0 < mf := h0.trans h1
  have b1 : pf / mf < 1 := (div_lt_one hmf).2 h1
  have b0 : 0 < pf / mf := div_pos h0 hmf
  have lp : lenSq (fun i => p i / mf) = pf / mf * (pf / mf) := by
    have : lenSq p = pf * pf := by
      rw [hp, mul_self_sqrt]
      unfold lenSq
      positivity
    rw [show lenSq (fun i => p i / mf) = lenSq p / (mf * mf) by unfold lenSq; field_simp, this]
    field_simp
  rw [photon_mean k h0 h1, doppler_mean, lp]
  generalize pf / mf = b at b0 b1
  have hbb : 0 < 1 - b * b := by nlinarith
  have q0 : 0 < √(1 - b * b) := sqrt_pos.2 hbb
  have q1 : √(1 - b * b) < 1 := by
    rw [sqrt_lt' one_pos]
    nlinarith
  have q2 : √(1 - b * b) * √(1 - b * b) = 1 - b * b := mul_self_sqrt hbb.le
  constructor
  · have y1 : 1 < (1 + b) / (1 - b) := by
      rw [one_lt_div (by linarith)]
      linarith
    have yp : 0 < (1 + b) / (1 - b) := by linarith
    have t0 : 0 < log ((1 + b) / (1 - b)) / 2 := by
      have := log_pos y1
      linarith
    have sh := self_lt_sinh_iff.2 t0
    have ex : exp (log ((1 + b) / (1 - b)) / 2) = (1 + b) / √(1 - b * b) := by
      have h2 : exp (log ((1 + b) / (1 - b)) / 2) ^ 2 = ((1 + b) / √(1 - b * b)) ^ 2 := by
        rw [← exp_nat_mul, Nat.cast_two, mul_div_cancel₀ _ two_ne_zero, exp_log yp, div_pow, pow_two √(1 - b * b), q2]
        have : 1 - b ≠ 0 := by linarith
        rw [div_eq_div_iff this hbb.ne']
        ring
      exact (pow_left_inj₀ (exp_pos _).le (by positivity) two_ne_zero).1 h2
    rw [sinh_eq, exp_neg, ex] at sh
    have e : ((1 + b) / √(1 - b * b) - ((1 + b) / √(1 - b * b))⁻¹) / 2 = b / √(1 - b * b) := by
      have : 1 + b ≠ 0 := by linarith
      rw [inv_div]
      generalize √(1 - b * b) = q at q0 q2
      field_simp
      linear_combination -q2
    rw [e, lt_div_iff₀ q0] at sh
    rw [mul_assoc]
    refine mul_lt_of_lt_one_right he ?_
    rw [mul_div_assoc', div_lt_one (by positivity)]
    linarith
  · rw [lt_div_iff₀ q0]
    nlinarith

/-- A fragment at three fifths of the speed of light: photons of energy one have less on average, where it should be 5/4. -/
example (k : Const) : mean (photonBoost k 3 5 1) (·.energy) < 1 ∧ ∫ ω, doppler (fun i => (![0, 0, 3] : V3) i / 5) (dirAt 0 ω) 1 ∂stream = 5 / 4 := by
  refine ⟨(C161_refuted k (p := ![0, 0, 3]) (by simp [lenSq]) (by norm_num) (by norm_num) one_pos).1, ?_⟩
  have lp : lenSq (fun i => (![0, 0, 3] : V3) i / 5) = 3 / 5 * (3 / 5) := by
    show ((![0, 0, 3] : V3) 0 / 5) ^ 2 + ((![0, 0, 3] : V3) 1 / 5) ^ 2 + ((![0, 0, 3] : V3) 2 / 5) ^ 2 = _
    simp
    norm_num
  rw [doppler_mean, lp, show (1 - 3 / 5 * (3 / 5) : ℝ) = (4 / 5) * (4 / 5) by norm_num, sqrt_mul_self (by norm_num)]
  norm_num

end CGMF.Props

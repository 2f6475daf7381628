import Verif.Props.LevDen
import Mathlib.Analysis.Convex.SpecificFunctions.Basic
import Mathlib.Analysis.SpecialFunctions.Log.Basic

/-!
# The density parameter and the shape of the level density

C80: damping of the shell correction, the density parameter below and above the matching energy, the two branches of
`ldLevelDensity` and the limit at the matching energy.
-/

namespace CGMF.Props

open CGMF.LevDen Real Topology Filter

/-- C80.  The level density parameter tends to its asymptotic value at high energy, to `a* (1 + γ δW)` at low energy,
and its distance from the asymptotic value never grows with the energy. -/
theorem C80_shell {a dw mass : ℝ} (hm : 0 < mass) :
    Tendsto (fun u => shellCorrection u a dw mass) atTop (𝓝 a) ∧
    Tendsto (fun u => shellCorrection u a dw mass) (𝓝[>] 0)
      (𝓝 (a * (1 + 31 / 100 * mass ^ (-(1 / 3) : ℝ) * dw))) ∧
    ∀ u v, 0 < u → u ≤ v → |shellCorrection v a dw mass - a| ≤ |shellCorrection u a dw mass - a| := by
  have hg : 0 < 31 / 100 * mass ^ (-(1 / 3) : ℝ) := by positivity
  unfold shellCorrection
  generalize 31 / 100 * mass ^ (-(1 / 3) : ℝ) = g at hg
  dsimp only
  refine ⟨?_, ?_, ?_⟩
  · have h1 : Tendsto (fun u : ℝ => (1 - exp (-g * u)) * dw * u⁻¹) atTop (𝓝 ((1 - 0) * dw * 0)) := by
      refine Tendsto.mul (Tendsto.mul_const _ (Tendsto.const_sub _ ?_)) tendsto_inv_atTop_zero
      refine tendsto_exp_atBot.comp ?_
      exact tendsto_id.const_mul_atTop_of_neg (neg_lt_zero.2 hg)
    have h2 : Tendsto (fun u : ℝ => a * (1 + (1 - exp (-g * u)) * dw * u⁻¹)) atTop
        (𝓝 (a * (1 + (1 - 0) * dw * 0))) := (h1.const_add 1).const_mul a
    have e : a * (1 + (1 - 0) * dw * 0) = a := by ring
    rw [e] at h2
    refine h2.congr' ?_
    filter_upwards [eventually_gt_atTop 0] with u hu
    rw [if_pos hu, div_eq_mul_inv]
  · have hd : HasDerivAt (fun u : ℝ => 1 - exp (-g * u)) g 0 := by
      have h0 : HasDerivAt (fun u : ℝ => -g * u) (-g) 0 := by simpa using (hasDerivAt_id (0 : ℝ)).const_mul (-g)
      have := (h0.exp).const_sub 1
      simpa using this
    have hs := hd.tendsto_slope_zero_right
    have h2 : Tendsto (fun u : ℝ => a * (1 + (u⁻¹ • ((1 - exp (-g * (0 + u))) - (1 - exp (-g * 0)))) * dw)) (𝓝[>] 0)
        (𝓝 (a * (1 + g * dw))) := ((hs.mul_const dw).const_add 1).const_mul a
    refine h2.congr' ?_
    filter_upwards [self_mem_nhdsWithin] with u hu
    rw [if_pos (Set.mem_Ioi.1 hu)]
    simp only [zero_add, mul_zero, exp_zero, sub_self, sub_zero, smul_eq_mul]
    ring
  · intro u v hu huv
    have hv : 0 < v := hu.trans_le huv
    rw [if_pos hu, if_pos hv]
    have key : (1 - exp (-g * v)) / v ≤ (1 - exp (-g * u)) / u := by
      have hw : 0 ≤ 1 - u / v := by rw [sub_nonneg, div_le_one hv]; exact huv
      have hw' : 0 ≤ u / v := by positivity
      have hc := convexOn_exp.2 (Set.mem_univ 0) (Set.mem_univ (-g * v)) hw hw' (by ring)
      simp only [smul_eq_mul, mul_zero, zero_add, exp_zero, mul_one] at hc
      have e : u / v * (-g * v) = -g * u := by field_simp
      rw [e] at hc
      rw [div_le_div_iff₀ hv hu]
      have e2 : v * (1 - u / v + u / v * exp (-g * v)) = v - u + u * exp (-g * v) := by field_simp
      have := mul_le_mul_of_nonneg_left hc hv.le
      rw [e2] at this
      linarith
    have h0 : 0 ≤ (1 - exp (-g * v)) / v := by
      refine div_nonneg ?_ hv.le
      rw [sub_nonneg, exp_le_one_iff]
      nlinarith
    have e : ∀ w, a * (1 + (1 - exp (-g * w)) * dw / w) - a = a * dw * ((1 - exp (-g * w)) / w) := by intro w; ring
    rw [e, e, abs_mul, abs_mul (a * dw), abs_of_nonneg h0, abs_of_nonneg (h0.trans key)]
    exact mul_le_mul_of_nonneg_left key (abs_nonneg _)

/-- C80.  At effective energy zero the parameter jumps to the asymptotic value: the test meant for that limit sits
inside `u > 0` and is never met. -/
theorem C80_shell_jump {a dw mass : ℝ} (hm : 0 < mass) (ha : a ≠ 0) (hd : dw ≠ 0) :
    ¬ ContinuousAt (fun u => shellCorrection u a dw mass) 0 := by
  intro hc
  have h1 := (C80_shell (a := a) (dw := dw) hm).2.1
  have h2 : Tendsto (fun u => shellCorrection u a dw mass) (𝓝[>] 0) (𝓝 (shellCorrection 0 a dw mass)) :=
    hc.tendsto.mono_left nhdsWithin_le_nhds
  have h3 := tendsto_nhds_unique h1 h2
  have e : shellCorrection 0 a dw mass = a := by unfold shellCorrection; simp
  rw [e] at h3
  have hg : 0 < 31 / 100 * mass ^ (-(1 / 3) : ℝ) := by positivity
  have : a * (31 / 100 * mass ^ (-(1 / 3) : ℝ)) * dw = 0 := by linarith
  exact (mul_ne_zero (mul_ne_zero ha hg.ne') hd) this

/-- Mass 132 with a shell correction of −3 MeV. -/
example : ¬ ContinuousAt (fun u => shellCorrection u 15 (-3) 132) 0 :=
  C80_shell_jump (by norm_num) (by norm_num) (by norm_num)

/-- C80.  Below the matching energy the density parameter keeps the value it has there; above, it follows the
excitation energy less the pairing energy. -/
theorem C80_parameter {mass : ℝ} {p : Ldp} (h : p.matchE ≠ 0) :
    (∀ ex, ex ≤ p.matchE → densityParameter ex mass p = densityParameter p.matchE mass p) ∧
    ∀ ex, p.matchE ≤ ex → densityParameter ex mass p = shellCorrection (ex - p.pairing) p.a p.shell mass := by
  unfold densityParameter
  simp only [if_neg h, lt_irrefl, if_false]
  constructor
  · intro ex hx
    by_cases hl : ex < p.matchE
    · rw [if_pos hl]
    · rw [if_neg hl, le_antisymm hx (not_lt.1 hl)]
  · intro ex hx
    rw [if_neg (not_lt.2 hx)]

theorem density_below {ex mass : ℝ} {r : ℝ × ℝ} {p : Ldp} (h : p.matchE ≠ 0) (hx : ex < p.matchE)
    (hr : levelDensity ex mass p = .ok r) : p.temp ≠ 0 ∧ r.1 = exp ((ex - p.e0) / p.temp) / p.temp := by
  unfold levelDensity at hr
  rw [if_neg h] at hr
  dsimp only at hr
  rw [bind_ok_iff] at hr
  obtain ⟨sc, _, hr⟩ := hr
  rw [if_pos hx, bind_ok_iff] at hr
  obtain ⟨d, hd, hr⟩ := hr
  unfold constTemp at hd
  split at hd
  · cases hd
  · rename_i ht
    simp only [Res.ok.injEq] at hd hr
    refine ⟨ht, ?_⟩
    rw [← hr, ← hd]

theorem density_left {mass : ℝ} {ρ σ : ℝ → ℝ} {p : Ldp} (h : p.matchE ≠ 0)
    (hr : ∀ ex, ex < p.matchE → levelDensity ex mass p = .ok (ρ ex, σ ex)) :
    Tendsto ρ (𝓝[<] p.matchE) (𝓝 (exp ((p.matchE - p.e0) / p.temp) / p.temp)) := by
  have hc : Continuous fun ex : ℝ => exp ((ex - p.e0) / p.temp) / p.temp := by fun_prop
  refine (hc.continuousAt.tendsto.mono_left nhdsWithin_le_nhds).congr' ?_
  filter_upwards [self_mem_nhdsWithin] with ex hx
  exact (density_below h hx (hr ex hx)).2.symm

/-- C80.  Below the matching energy the density grows by `e` per temperature. -/
theorem C80_below {x y mass : ℝ} {r s : ℝ × ℝ} {p : Ldp} (h : p.matchE ≠ 0) (hx : x < p.matchE) (hy : y < p.matchE)
    (hr : levelDensity x mass p = .ok r) (hs : levelDensity y mass p = .ok s) :
    s.1 = r.1 * exp ((y - x) / p.temp) := by
  obtain ⟨ht, e1⟩ := density_below h hx hr
  obtain ⟨_, e2⟩ := density_below h hy hs
  rw [e1, e2, div_mul_eq_mul_div, ← exp_add]
  congr 2
  field_simp
  ring

/-- C80.  The density `ρ` that `ldLevelDensity` returns as a function of the energy is continuous at the matching
energy to `1e-6/T` in the logarithm, provided the matching energy is not below the highest discrete level. -/
theorem C80_joined_partial {mass lve lvn : ℝ} {p p' : Ldp} {ρ σ : ℝ → ℝ} (hn : 2 < lvn)
    (hlo : max p.pairing (9 / (4 * shellCorrection (lve - p.pairing) p.a p.shell mass)) < 100)
    (h : tgConnect mass lve lvn p = .ok p') (hok : p'.matchE ≠ 0) (hle : lve ≤ p'.matchE)
    (hρ : ∀ ex, levelDensity ex mass p' = .ok (ρ ex, σ ex)) :
    ∃ L, Tendsto ρ (𝓝[<] p'.matchE) (𝓝 L) ∧ 0 < L ∧ 0 < ρ p'.matchE ∧
      |log (ρ p'.matchE) - log L| ≤ 1 / 1000000 / p'.temp := by
  obtain ⟨ct, fg, s, h1, h2, h3, h4, h5⟩ := C80_continuous_partial hn hlo h hok hle
  have hl := density_left hok (fun ex _ => hρ ex)
  unfold constTemp at h1
  split at h1
  · cases h1
  · simp only [Res.ok.injEq] at h1
    rw [h1] at hl
    rw [hρ, Res.ok.injEq, Prod.mk.injEq] at h2
    exact ⟨ct, hl, h3, h2.1 ▸ h4, by rw [h2.1]; exact h5⟩

/-- C80.  With the systematic temperature the same function is continuous to `1e-6`. -/
theorem C80_joined_extrapolate {mass lve : ℝ} {p p' : Ldp} {ρ σ : ℝ → ℝ} (hm : 0 < mass) (hlo : max p.pairing lve < 100)
    (h : tExtrapolate mass lve p = .ok p') (hok : p'.matchE ≠ 0) (hρ : ∀ ex, levelDensity ex mass p' = .ok (ρ ex, σ ex)) :
    ∃ L, Tendsto ρ (𝓝[<] p'.matchE) (𝓝 L) ∧ |L - ρ p'.matchE| ≤ 1 / 1000000 := by
  rcases C80_extrapolate hm hlo h with hz | ⟨_, _, _, _, _, hz⟩
  · exact absurd (by rw [hz]) hok
  · obtain ⟨ct, fg, s, h1, h2, h3⟩ := hz hok
    have hl := density_left hok (fun ex _ => hρ ex)
    unfold constTemp at h1
    split at h1
    · cases h1
    · simp only [Res.ok.injEq] at h1
      rw [h1] at hl
      rw [hρ, Res.ok.injEq, Prod.mk.injEq] at h2
      exact ⟨ct, hl, by rw [h2.1]; exact h3⟩

namespace LevDenJump

/-! A nucleus whose highest discrete level, at 80 MeV, lies above the matching energy of 75 MeV. -/

noncomputable def damp (u : ℝ) : ℝ := (1 - exp (-(31 / 100) * u)) / u

/-- Pairing 50 MeV, asymptotic parameter 1, and a shell correction which makes the parameter 4 at the highest level. -/
noncomputable def start : Ldp := ⟨0, 3 / damp 30, 0, 0, 1, 50, 0, 0⟩

theorem damp_pos {u : ℝ} (hu : 0 < u) : 0 < damp u := by
  unfold damp
  refine div_pos ?_ hu
  rw [sub_pos, exp_lt_one_iff]
  linarith

theorem shell_eq {u : ℝ} (hu : 0 < u) : shellCorrection u 1 (3 / damp 30) 1 = 1 + 3 * (damp u / damp 30) := by
  unfold shellCorrection
  rw [if_pos hu, one_rpow]
  unfold damp
  ring_nf

theorem shell30 : shellCorrection 30 1 (3 / damp 30) 1 = 4 := by
  rw [shell_eq (by norm_num), div_self (damp_pos (by norm_num)).ne']; norm_num

noncomputable def a2 : ℝ := shellCorrection 25 1 (3 / damp 30) 1

theorem a2_large : 418 / 100 ≤ a2 := by
  unfold a2
  rw [shell_eq (by norm_num)]
  have h30 : damp 30 ≤ 1 / 30 := by
    unfold damp
    have := exp_pos (-(31 / 100) * 30 : ℝ)
    gcongr
    linarith
  have h25 : (31 / 35) / 25 ≤ damp 25 := by
    unfold damp
    have e : exp (-(31 / 100) * 25 : ℝ) ≤ 4 / 35 := by
      rw [show (-(31 / 100) * 25 : ℝ) = -(31 / 4) by norm_num, exp_neg, inv_le_comm₀ (exp_pos _) (by norm_num)]
      have := add_one_le_exp (31 / 4 : ℝ)
      norm_num at this ⊢
      linarith
    gcongr
    linarith
  have hp := damp_pos (u := 30) (by norm_num)
  have : (31 / 35) / 25 * 30 ≤ damp 25 / damp 30 := by
    rw [le_div_iff₀ hp]
    calc (31 / 35 : ℝ) / 25 * 30 * damp 30 ≤ (31 / 35) / 25 * 30 * (1 / 30) := by gcongr
      _ ≤ damp 25 := by linarith
  norm_num at this ⊢
  linarith

/-- Spin cut-off and Fermi gas density at `U = 25` for the parameter `a`. -/
noncomputable def cut (a : ℝ) : ℝ := √(6945 / 1000000 * √(25 / a) * (1 : ℝ) ^ (5 / 3 : ℝ))

noncomputable def gas (a : ℝ) : ℝ :=
  1 / (12 * √2) * exp (2 * √(a * 25)) / (a ^ (1 / 4 : ℝ) * (25 : ℝ) ^ (5 / 4 : ℝ)) / cut a

theorem cut_pos {a : ℝ} (ha : 0 < a) : 0 < cut a := by unfold cut; positivity

theorem gas_pos {a : ℝ} (ha : 0 < a) : 0 < gas a := by have := cut_pos ha; unfold gas; positivity

theorem spin_eq {a : ℝ} (ha : 0 < a) : spinCutoff 25 a 1 0 = .ok (cut a) := by
  unfold spinCutoff
  rw [if_neg (by push Not; exact ⟨ha, zero_le_one⟩)]
  dsimp only
  rw [if_neg (by norm_num), max_eq_left (sqrt_nonneg _)]
  rfl

theorem gas_eq {a : ℝ} (ha : 0 < a) : fermiGas 25 a (cut a) = .ok (gas a) := by
  unfold fermiGas gas
  rw [if_neg (by norm_num), if_neg (by push Not; exact ⟨by norm_num, ha, (cut_pos ha).ne'⟩)]

/-- `gas a` depends on `a` only through the exponential. -/
theorem gas_ratio {a b : ℝ} (ha : 0 < a) (hb : 0 < b) :
    log (gas b) - log (gas a) = 10 * (√b - √a) := by
  have h25 : √(25 : ℝ) = 5 := LevDenDemo.sqrt25
  have form : ∀ c : ℝ, 0 < c → log (gas c) = log (1 / (12 * √2)) + 10 * √c - log ((25 : ℝ) ^ (5 / 4 : ℝ))
      - log (√(6945 / 1000000 * 5)) := by
    intro c hc
    have hcut : cut c = √(6945 / 1000000 * 5) / c ^ (1 / 4 : ℝ) := by
      unfold cut
      rw [one_rpow, mul_one, sqrt_div (by norm_num), h25, ← mul_div_assoc, sqrt_div (by norm_num)]
      congr 1
      rw [sqrt_eq_rpow, sqrt_eq_rpow, ← rpow_mul hc.le]
      norm_num
    have hc4 : 0 < c ^ (1 / 4 : ℝ) := rpow_pos_of_pos hc _
    have h5 : 0 < (25 : ℝ) ^ (5 / 4 : ℝ) := by positivity
    have hs : 0 < √(6945 / 1000000 * 5 : ℝ) := by positivity
    have e : gas c = 1 / (12 * √2) * exp (10 * √c) / (25 : ℝ) ^ (5 / 4 : ℝ) / √(6945 / 1000000 * 5) := by
      unfold gas
      rw [hcut, sqrt_mul hc.le, h25, show 2 * (√c * 5) = 10 * √c by ring]
      field_simp
    rw [e, log_div (by positivity) hs.ne', log_div (by positivity) h5.ne', log_mul (by positivity) (exp_pos _).ne',
      log_exp]
  rw [form a ha, form b hb]
  ring

noncomputable def temp : ℝ := 50 / 17

/-- The number of levels for which the connection succeeds at the first trial. -/
noncomputable def levels : ℝ := (exp (80 / temp) - 1) / exp ((75 - temp * log (temp * gas 4)) / temp)

theorem cut4 : cut 4 ≤ 1 := by
  unfold cut
  rw [one_rpow, mul_one, sqrt_le_left zero_le_one]
  have : √(25 / 4 : ℝ) ≤ 5 / 2 := by rw [sqrt_le_left (by norm_num)]; norm_num
  linarith

theorem gas4 : 2 < gas 4 := by
  have hc := cut_pos (a := 4) (by norm_num)
  have hc1 := cut4
  have e20 : (1048576 : ℝ) ≤ exp (2 * √(4 * 25)) := by
    have : √(4 * 25 : ℝ) = 10 := by rw [show (4 * 25 : ℝ) = 10 ^ 2 by norm_num]; exact sqrt_sq (by norm_num)
    rw [this]
    have h2 : (2 : ℝ) ≤ exp 1 := by have := add_one_le_exp (1 : ℝ); linarith
    have h3 : exp (2 * 10 : ℝ) = exp 1 ^ 20 := by rw [← exp_nat_mul]; norm_num
    rw [h3]
    calc (1048576 : ℝ) = 2 ^ 20 := by norm_num
      _ ≤ exp 1 ^ 20 := pow_le_pow_left₀ (by norm_num) h2 20
  have s2 : √(2 : ℝ) ≤ 2 := by rw [sqrt_le_left (by norm_num)]; norm_num
  have p4 : (4 : ℝ) ^ (1 / 4 : ℝ) ≤ 4 := by
    calc (4 : ℝ) ^ (1 / 4 : ℝ) ≤ 4 ^ (1 : ℝ) := rpow_le_rpow_of_exponent_le (by norm_num) (by norm_num)
      _ = 4 := rpow_one _
  have p25 : (25 : ℝ) ^ (5 / 4 : ℝ) ≤ 625 := by
    calc (25 : ℝ) ^ (5 / 4 : ℝ) ≤ 25 ^ (2 : ℝ) := rpow_le_rpow_of_exponent_le (by norm_num) (by norm_num)
      _ = 625 := by norm_num
  have s20 : 0 < √(2 : ℝ) := by positivity
  have p40 : 0 < (4 : ℝ) ^ (1 / 4 : ℝ) := by positivity
  have p250 : 0 < (25 : ℝ) ^ (5 / 4 : ℝ) := by positivity
  unfold gas
  generalize exp (2 * √(4 * 25)) = E at *
  generalize √(2 : ℝ) = S at *
  generalize (25 : ℝ) ^ (5 / 4 : ℝ) = P at *
  generalize (4 : ℝ) ^ (1 / 4 : ℝ) = Q at *
  generalize cut 4 = C at *
  have hden : 12 * S * (Q * P) * C ≤ 12 * 2 * (4 * 625) * 1 := by gcongr
  have hpos : 0 < 12 * S * (Q * P) * C := by positivity
  have : 1 / (12 * S) * E / (Q * P) / C = E / (12 * S * (Q * P) * C) := by field_simp
  rw [this, lt_div_iff₀ hpos]
  nlinarith

theorem levels_many : 2 < levels := by
  have hg := gas4
  unfold levels
  have ht : 0 < temp := by unfold temp; norm_num
  have h0 : 5 < temp * gas 4 := by unfold temp; linarith
  have e : (75 - temp * log (temp * gas 4)) / temp = 75 / temp - log (temp * gas 4) := by field_simp
  rw [e, exp_sub, exp_log (by linarith)]
  have hx : 1 ≤ exp (75 / temp) := one_le_exp (by positivity)
  have hx2 : exp (75 / temp) * (27 / 10) ≤ exp (80 / temp) := by
    have : (80 : ℝ) / temp = 75 / temp + 17 / 10 := by unfold temp; norm_num
    rw [this, exp_add]
    have := add_one_le_exp (17 / 10 : ℝ)
    gcongr
    linarith
  generalize exp (75 / temp) = x at *
  generalize exp (80 / temp) = y at *
  rw [div_div_eq_mul_div, lt_div_iff₀ (by linarith)]
  nlinarith

/-- The result of the connection. -/
noncomputable def final : Ldp := { start with temp := temp, e0 := 75 - temp * log (temp * gas 4), matchE := 75 }

theorem connected : tgConnect 1 80 levels start = .ok final := by
  have hg := gas4
  have ht0 : 0 < temp := by unfold temp; norm_num
  have ht : tgTemp 1 80 start 75 = .ok (temp, 4) := by
    unfold tgTemp start
    dsimp only
    rw [max_eq_left (by norm_num), show (80 - 50 : ℝ) = 30 by norm_num, shell30]
    have h5 : √(4 / (75 - 50) : ℝ) = 2 / 5 := by
      rw [show (4 / (75 - 50) : ℝ) = (2 / 5) ^ 2 by norm_num]; exact sqrt_sq (by norm_num)
    rw [h5, if_neg (by norm_num), if_neg (by norm_num)]
    unfold temp
    norm_num
  have hx : 0 < exp (80 / temp) - (1 : ℝ) := by
    rw [sub_pos, one_lt_exp_iff]; positivity
  have hsh : tgShifts 1 80 levels start 75 temp 4 =
      .ok (75 - temp * log (temp * gas 4), 75 - temp * log (temp * gas 4)) := by
    unfold tgShifts start
    dsimp only
    rw [if_neg (by norm_num), show (75 - 50 : ℝ) = 25 by norm_num, spin_eq (by norm_num)]
    simp only [Res.bind]
    rw [gas_eq (by norm_num)]
    simp only
    have : 0 < temp * gas 4 := mul_pos ht0 (by linarith)
    rw [if_neg (not_le.2 this)]
    have : (exp (80 / temp) - 1) / levels = exp ((75 - temp * log (temp * gas 4)) / temp) := by
      unfold levels
      rw [div_div_cancel₀ hx.ne']
    rw [this, log_exp, mul_div_cancel₀ _ ht0.ne']
  unfold tgConnect
  rw [if_neg (not_le.2 levels_many)]
  show (if shellCorrection (80 - start.pairing) start.a start.shell 1 = 0 then Res.ub else _) = _
  have e1 : shellCorrection (80 - start.pairing) start.a start.shell 1 = 4 := by
    show shellCorrection (80 - 50) 1 (3 / damp 30) 1 = 4
    rw [show (80 - 50 : ℝ) = 30 by norm_num]; exact shell30
  rw [e1, if_neg (by norm_num), tgLoop]
  have e2 : (max start.pairing (9 / (4 * 4)) + 100) / 2 = 75 := by
    show (max (50 : ℝ) _ + 100) / 2 = 75
    rw [max_eq_left (by norm_num)]; norm_num
  simp only [e2, ht, Res.bind, hsh, sub_self, abs_zero]
  rw [if_neg (not_lt.2 ht0.le), if_neg (by norm_num)]
  rfl

theorem shell_pos {u : ℝ} (hu : 0 < u) : 0 < shellCorrection u 1 (3 / damp 30) 1 := by
  rw [shell_eq hu]
  have := damp_pos hu
  have := damp_pos (u := 30) (by norm_num)
  positivity

/-- The density exists at every energy. -/
theorem defined (ex : ℝ) : ∃ r, levelDensity ex 1 final = .ok r := by
  have ha : 0 < densityParameter ex 1 final := by
    unfold densityParameter final start
    dsimp only
    rw [if_neg (by norm_num)]
    split
    · exact shell_pos (by norm_num)
    · exact shell_pos (by linarith)
  have ht : temp ≠ 0 := by unfold temp; norm_num
  unfold levelDensity
  rw [if_neg (by unfold final; norm_num)]
  dsimp only
  have hsc : ∃ sc, spinCutoff (ex - final.pairing) (densityParameter ex 1 final) 1 final.sigma0 = .ok sc := by
    unfold spinCutoff
    rw [if_neg (by push Not; exact ⟨ha, zero_le_one⟩)]
    exact ⟨_, rfl⟩
  obtain ⟨sc, hsc⟩ := hsc
  have hs0 := (spinCutoff_pos one_pos hsc).1
  rw [hsc]
  simp only [Res.bind]
  by_cases hx : ex < final.matchE
  · rw [if_pos hx]
    unfold constTemp
    rw [if_neg (show final.temp ≠ 0 from ht)]
    exact ⟨_, rfl⟩
  · have h75 : 75 ≤ ex := not_lt.1 hx
    rw [if_neg hx]
    unfold fermiGas
    have hp : final.pairing = 50 := rfl
    rw [hp, if_neg (by linarith), if_neg (by push Not; exact ⟨by linarith, ha, hs0.ne'⟩)]
    exact ⟨_, rfl⟩

theorem at_match : levelDensity 75 1 final = .ok (gas a2, cut a2) := by
  have h2 : 0 < a2 := by have := a2_large; linarith
  have ha : densityParameter 75 1 final = a2 := by
    rw [(C80_parameter (by unfold final; norm_num)).2 75 le_rfl]
    show shellCorrection (75 - 50) 1 (3 / damp 30) 1 = a2
    rw [show (75 - 50 : ℝ) = 25 by norm_num]; rfl
  unfold levelDensity
  rw [if_neg (by unfold final; norm_num)]
  dsimp only
  rw [ha]
  show (spinCutoff (75 - 50) a2 1 0).bind _ = _
  rw [show (75 - 50 : ℝ) = 25 by norm_num, spin_eq h2]
  simp only [Res.bind]
  rw [if_neg (show ¬ (75 : ℝ) < final.matchE from lt_irrefl _)]
  have hp : final.pairing = 50 := rfl
  rw [hp, show (75 - 50 : ℝ) = 25 by norm_num, gas_eq h2]

end LevDenJump

open LevDenJump in
/-- C80.  Below the highest discrete level continuity fails: there are parameters for which the connection succeeds and
`ldLevelDensity` is defined at every energy, but its value at the matching energy differs from the limit from below by
a factor of more than `e^(2/5)`. -/
theorem C80_jump : ∃ (mass lve lvn : ℝ) (p p' : Ldp) (ρ σ : ℝ → ℝ) (L : ℝ), 0 < mass ∧ 2 < lvn ∧
    tgConnect mass lve lvn p = .ok p' ∧ p'.matchE ≠ 0 ∧ 0 < p'.temp ∧ p'.matchE < lve ∧
    (∀ ex, levelDensity ex mass p' = .ok (ρ ex, σ ex)) ∧ Tendsto ρ (𝓝[<] p'.matchE) (𝓝 L) ∧ 0 < L ∧
    2 / 5 < log (ρ p'.matchE) - log L := by
  choose r hr using defined
  have hm : final.matchE ≠ 0 := by unfold final; norm_num
  have ht : 0 < temp := by unfold temp; norm_num
  have hl := density_left (ρ := fun e => (r e).1) (σ := fun e => (r e).2) hm (fun e _ => hr e)
  have hg : 0 < temp * gas 4 := mul_pos ht (by have := gas4; linarith)
  have hL : exp ((final.matchE - final.e0) / final.temp) / final.temp = gas 4 := by
    show exp ((75 - (75 - temp * log (temp * gas 4))) / temp) / temp = gas 4
    rw [sub_sub_cancel, mul_div_cancel_left₀ _ ht.ne', exp_log hg, mul_div_cancel_left₀ _ ht.ne']
  rw [hL] at hl
  refine ⟨1, 80, levels, start, final, fun e => (r e).1, fun e => (r e).2, gas 4, one_pos, levels_many, connected, hm,
    ht, ?_, hr, hl, by have := gas4; linarith, ?_⟩
  · show (75 : ℝ) < 80
    norm_num
  · have h1 : (r final.matchE).1 = gas a2 := by
      have e := hr 75
      rw [at_match, Res.ok.injEq] at e
      show (r 75).1 = _
      rw [← e]
    show _ < log (r final.matchE).1 - log (gas 4)
    rw [h1, gas_ratio (by norm_num) (by have := a2_large; linarith)]
    have h4 : √(4 : ℝ) = 2 := by rw [show (4 : ℝ) = 2 ^ 2 by norm_num]; exact sqrt_sq (by norm_num)
    rw [h4]
    have : (2044 / 1000 : ℝ) ≤ √a2 := by
      rw [le_sqrt' (by norm_num)]
      have := a2_large
      norm_num; linarith
    linarith

namespace LevDenDemo

/-- The density of the first demonstration exists at every energy. -/
theorem defined (ex : ℝ) : ∃ r, levelDensity ex 1
    { start with temp := 50 / 7, e0 := 75 - 50 / 7 * log (50 / 7 * gas), matchE := 75 } = .ok r := by
  have ha : densityParameter ex 1
      { start with temp := 50 / 7, e0 := 75 - 50 / 7 * log (50 / 7 * gas), matchE := 75 } = 1 := by
    unfold densityParameter start
    dsimp only
    rw [if_neg (by norm_num), shell0, shell0, ite_self]
  unfold levelDensity
  rw [if_neg (by norm_num), ha]
  dsimp only
  have hsc : ∃ sc, spinCutoff (ex - start.pairing) 1 1 start.sigma0 = .ok sc := by
    unfold spinCutoff
    rw [if_neg (by norm_num)]
    exact ⟨_, rfl⟩
  obtain ⟨sc, hsc⟩ := hsc
  have hs0 := (spinCutoff_pos one_pos hsc).1
  rw [hsc]
  simp only [Res.bind]
  by_cases hx : ex < 75
  · rw [if_pos hx]
    unfold constTemp
    rw [if_neg (by norm_num)]
    exact ⟨_, rfl⟩
  · have h75 : 75 ≤ ex := not_lt.1 hx
    rw [if_neg hx]
    unfold fermiGas
    have hp : start.pairing = 50 := rfl
    rw [hp, if_neg (by linarith), if_neg (by push Not; exact ⟨by linarith, by norm_num, hs0.ne'⟩)]
    exact ⟨_, rfl⟩

/-- C80: the matching energy is at the highest level and the density is continuous there to 1.4e-7 in the logarithm. -/
example : ∃ (ρ : ℝ → ℝ) (L : ℝ), Tendsto ρ (𝓝[<] 75) (𝓝 L) ∧ 0 < L ∧ |log (ρ 75) - log L| ≤ 1 / 1000000 / (50 / 7) := by
  choose r hr using defined
  have hlo : max start.pairing (9 / (4 * shellCorrection (75 - start.pairing) start.a start.shell 1)) < 100 := by
    have e1 : shellCorrection (75 - start.pairing) start.a start.shell 1 = 1 := shell0 _
    rw [e1]
    show max (50 : ℝ) (9 / (4 * 1)) < 100
    rw [max_eq_left (by norm_num)]; norm_num
  obtain ⟨L, h1, h2, _, h3⟩ := C80_joined_partial (ρ := fun e => (r e).1) (σ := fun e => (r e).2) levels_many hlo
    connected (by norm_num) le_rfl hr
  exact ⟨_, L, h1, h2, h3⟩

end LevDenDemo

/-- C80: the shell correction of tin-like size is damped. -/
example : |shellCorrection 20 15 2 125 - 15| ≤ |shellCorrection 5 15 2 125 - 15| :=
  (C80_shell (by norm_num)).2.2 5 20 (by norm_num) (by norm_num)

/-- C80: two energies below the matching energy of the case above. -/
example : ∃ r s, levelDensity 60 1 LevDenJump.final = .ok r ∧ levelDensity 70 1 LevDenJump.final = .ok s ∧
    s.1 = r.1 * exp ((70 - 60) / LevDenJump.temp) := by
  obtain ⟨r, hr⟩ := LevDenJump.defined 60
  obtain ⟨s, hs⟩ := LevDenJump.defined 70
  refine ⟨r, s, hr, hs, C80_below (p := LevDenJump.final) ?_ ?_ ?_ hr hs⟩ <;>
    · unfold LevDenJump.final; norm_num

end CGMF.Props

import Verif.Props.LabSpectrum

/-!
# C159: laboratory energies of photons

Probabilities refer to independent uniform random numbers, as for C100.  What is intended: the photon leaves the fragment in any direction alike,
and its laboratory energy is the Doppler shift `doppler` (`Spec/Kinematics.lean`) for that direction.
-/

namespace CGMF.Props

open MeasureTheory Real CGMF.Law CGMF.Kin CGMF.Isotropy CGMF.Spec

/-- The law of the energy as recorded. -/
theorem photon_law (k : Const) {pf mf eg E : ℝ} (h0 : 0 < pf) (h1 : pf < mf) (he : 0 < eg) (E0 : 0 < E)
    (c0 : -1 ≤ (1 - eg * √(1 - pf / mf * (pf / mf)) / E) / (pf / mf)) (c1 : (1 - eg * √(1 - pf / mf * (pf / mf)) / E) / (pf / mf) ≤ 1) :
    probIn (photonBoost k pf mf eg) {g | g.energy ≤ E} =
      ENNReal.ofReal ((1 + (1 - eg * √(1 - pf / mf * (pf / mf)) / E) / (pf / mf)) / 2) := by
  have hmf : 0 < mf := h0.trans h1
  have b1 : pf / mf < 1 := (div_lt_one hmf).2 h1
  have b0 : 0 < pf / mf := div_pos h0 hmf
  have hS : MeasurableSet {v : V3 | v 2 ≤ (1 - eg * √(1 - pf / mf * (pf / mf)) / E) / (pf / mf)} :=
    measurable_pi_apply 2 measurableSet_Iic
  rw [← C100_cosine _ c0 c1, ← solid_eq hS]
  refine prob_run (local_photon k pf mf eg) (n := 2) fun ω hω => ?_
  have r1 := hω 1
  have d0 : -1 ≤ 2 * ω 1 - 1 := by linarith [r1.1]
  have d1 : 2 * ω 1 - 1 ≤ 1 := by linarith [r1.2]
  have hcos := cos_arccos d0 d1
  have hden : 0 < 1 - pf / mf * (2 * ω 1 - 1) := by nlinarith
  have run : ∃ g, photonBoost k pf mf eg (pre ω 2) = .ok (g, []) ∧
      g.energy = eg * √(1 - pf / mf * (pf / mf)) / (1 - pf / mf * (2 * ω 1 - 1)) := by
    unfold photonBoost
    rw [show pre ω 2 = ω 0 :: [ω 1] from rfl, Rnd.bind_of_ok (Rnd.draw_cons _ _), Rnd.bind_of_ok (Rnd.draw_cons _ _),
      Rnd.bind_of_ok (needs_run ⟨d0, d1⟩ _), Rnd.bind_of_ok (needs_run hmf.ne' _), Rnd.bind_of_ok (sqrtR_run (by nlinarith) _),
      Rnd.bind_of_ok (needs_run (by rw [hcos]; exact hden.ne') _), hcos]
    exact ⟨_, rfl, rfl⟩
  obtain ⟨g, hg, hen⟩ := run
  refine ⟨g, hg, ?_⟩
  show g.energy ≤ E ↔ 2 * ω 1 - 1 ≤ _
  rw [hen, div_le_iff₀ hden, le_div_iff₀ b0, le_sub_iff_add_le, ← le_sub_iff_add_le', div_le_iff₀ E0]
  constructor <;> intro h <;> linarith

/-- The law of the Doppler shift: uniform in the cosine. -/
theorem doppler_law {β : V3} {eg E : ℝ} (hb : 0 < lenSq β) (hb1 : lenSq β < 1) (he : 0 < eg)
    (c0 : -1 ≤ (E / eg * √(1 - lenSq β) - 1) / √(lenSq β)) (c1 : (E / eg * √(1 - lenSq β) - 1) / √(lenSq β) ≤ 1) :
    solid {n | doppler β n eg ≤ E} = ENNReal.ofReal ((1 + (E / eg * √(1 - lenSq β) - 1) / √(lenSq β)) / 2) := by
  rw [← solid_cap (lenSq_unit hb) c0 c1]
  congr 1
  ext n
  show doppler β n eg ≤ E ↔ dot n (unitDir β) ≤ _
  have s := sqrt_pos.2 hb
  have q : 0 < √(1 - lenSq β) := sqrt_pos.2 (by linarith)
  have d : dot β n = √(lenSq β) * dot n (unitDir β) := by
    simp only [dot, unitDir, Fin.sum_univ_three]
    field_simp
  rw [doppler, dot_self, d, le_div_iff₀ s, div_mul_eq_mul_div, div_le_iff₀ q,
    show E / eg * √(1 - lenSq β) - 1 = (E * √(1 - lenSq β) - eg) / eg by field_simp, le_div_iff₀ he]
  constructor <;> intro h <;> linarith

/-- The two laws compared; `b` is the speed, `y` the energy over that in the frame of the fragment. -/
theorem laws_compare {b y : ℝ} (b0 : 0 < b) (b1 : b < 1) (y0 : √((1 - b) / (1 + b)) ≤ y) (y1 : y ≤ √((1 + b) / (1 - b))) :
    0 < y ∧ -1 ≤ (y * √(1 - b * b) - 1) / b ∧ (y * √(1 - b * b) - 1) / b ≤ (1 - √(1 - b * b) / y) / b ∧
      (1 - √(1 - b * b) / y) / b ≤ 1 ∧ (1 - √(1 - b * b) / y) / b ≤ (y * √(1 - b * b) - 1) / b + 2 * b := by
  have hbb : 0 < 1 - b * b := by nlinarith
  have q2 : √(1 - b * b) * √(1 - b * b) = 1 - b * b := mul_self_sqrt hbb.le
  have q0 : 0 < √(1 - b * b) := sqrt_pos.2 hbb
  have s1 : √((1 - b) / (1 + b)) = √(1 - b * b) / (1 + b) := by
    rw [sqrt_eq_iff_mul_self_eq (by apply div_nonneg <;> linarith) (by positivity)]
    have : (1 + b) ≠ 0 := by linarith
    rw [div_mul_div_comm, q2, div_eq_div_iff this (by positivity)]
    ring
  have s2 : √((1 + b) / (1 - b)) = √(1 - b * b) / (1 - b) := by
    have hpos : 0 < 1 - b := by linarith
    rw [sqrt_eq_iff_mul_self_eq (by apply div_nonneg <;> linarith) (by positivity)]
    have : (1 - b) ≠ 0 := by linarith
    rw [div_mul_div_comm, q2, div_eq_div_iff this (by positivity)]
    ring
  rw [s1, div_le_iff₀ (by linarith)] at y0
  rw [s2, le_div_iff₀ (by linarith)] at y1
  set q := √(1 - b * b) with hq
  have ypos : 0 < y := by nlinarith
  have qb : 1 - q ≤ b * b := by nlinarith
  refine ⟨ypos, ?_, ?_, ?_, ?_⟩
  · rw [le_div_iff₀ b0]
    nlinarith
  · rw [div_le_div_iff_of_pos_right b0, le_sub_iff_add_le, sub_add_eq_add_sub, sub_le_iff_le_add]
    rw [← sub_nonneg]
    have e : 1 + 1 - (y * q + q / y) = (2 * y - q * (y * y) - q) / y := by
      field_simp
      ring
    rw [e]
    refine div_nonneg ?_ ypos.le
    have m := mul_nonneg (sub_nonneg.2 y0) (sub_nonneg.2 y1)
    have e2 : (y * (1 + b) - q) * (q - y * (1 - b)) = q * (2 * y - q * (y * y) - q) := by
      have : y * y * (1 - b * b) = y * y * (q * q) := by rw [q2]
      linear_combination -this
    rw [e2] at m
    exact nonneg_of_mul_nonneg_right (by linarith) q0
  · rw [div_le_one b0, sub_le_iff_le_add, ← sub_le_iff_le_add', le_div_iff₀ ypos]
    linarith
  · have t : (1 - q / y) / b - (y * q - 1) / b = (2 - q * (y + 1 / y)) / b := by
      field_simp
      ring
    have y2 : 2 ≤ y + 1 / y := by
      have : y + 1 / y - 2 = (y - 1) ^ 2 / y := by
        field_simp
        ring
      have : 0 ≤ (y - 1) ^ 2 / y := by positivity
      linarith
    have : (2 - q * (y + 1 / y)) / b ≤ 2 * b := by
      rw [div_le_iff₀ b0]
      nlinarith
    linarith

/-- **C159 (part that holds).**  For any energy `E` between the Doppler limits the probability of at most `E` is that of the intended law or more,
by at most the speed `b` of the fragment in units of that of light.  Missing: equality; see the refutation. -/
theorem C159_close_partial (k : Const) {p : V3} {pf mf eg E : ℝ} (hp : pf = √(lenSq p)) (h0 : 0 < pf) (h1 : pf < mf) (he : 0 < eg)
    (E0 : eg * √((1 - pf / mf) / (1 + pf / mf)) ≤ E) (E1 : E ≤ eg * √((1 + pf / mf) / (1 - pf / mf))) :
    solid {n | doppler (fun i => p i / mf) n eg ≤ E} ≤ probIn (photonBoost k pf mf eg) {g | g.energy ≤ E} ∧
    probIn (photonBoost k pf mf eg) {g | g.energy ≤ E} ≤ solid {n | doppler (fun i => p i / mf) n eg ≤ E} + ENNReal.ofReal (pf / mf) := by
  have hmf : 0 < mf := h0.trans h1
  have b1 : pf / mf < 1 := (div_lt_one hmf).2 h1
  have b0 : 0 < pf / mf := div_pos h0 hmf
  have lp : lenSq (fun i => p i / mf) = pf / mf * (pf / mf) := by
    have : lenSq p = pf * pf := by
      rw [hp, mul_self_sqrt]
      unfold lenSq
      positivity
    rw [show lenSq (fun i => p i / mf) = lenSq p / (mf * mf) by unfold lenSq; field_simp, this]
    field_simp
  have sl : √(lenSq fun i => p i / mf) = pf / mf := by rw [lp, sqrt_mul_self b0.le]
  obtain ⟨y0, l1, l2, l3, l4⟩ := laws_compare (y := E / eg) b0 b1 (by rw [le_div_iff₀ he]; linarith) (by rw [div_le_iff₀ he]; linarith)
  have EE : 0 < E := by
    have := mul_pos y0 he
    rwa [div_mul_cancel₀ _ he.ne'] at this
  have q : √(1 - pf / mf * (pf / mf)) / (E / eg) = eg * √(1 - pf / mf * (pf / mf)) / E := by
    field_simp
  rw [q] at l2 l3 l4
  have A := photon_law k h0 h1 he EE (l1.trans l2) l3
  have B := doppler_law (β := fun i => p i / mf) (eg := eg) (E := E) (by rw [lp]; positivity) (by rw [lp]; nlinarith) he
    (by rw [sl, lp]; exact l1) (by rw [sl, lp]; exact l2.trans l3)
  rw [sl, lp] at B
  rw [A, B]
  constructor
  · exact ENNReal.ofReal_le_ofReal (by linarith)
  · rw [← ENNReal.ofReal_add (by linarith) b0.le]
    exact ENNReal.ofReal_le_ofReal (by linarith)

/-- **C159, refuted.**  For every speed of the fragment the law differs from the intended one: of the photons of any energy more than half
are recorded with no more energy than they have in the frame of the fragment, where it should be less than half. -/
theorem C159_refuted (k : Const) {p : V3} {pf mf eg : ℝ} (hp : pf = √(lenSq p)) (h0 : 0 < pf) (h1 : pf < mf) (he : 0 < eg) :
    1 / 2 < probIn (photonBoost k pf mf eg) {g | g.energy ≤ eg} ∧ solid {n | doppler (fun i => p i / mf) n eg ≤ eg} < 1 / 2 := by
  have hmf : 0 < mf := h0.trans h1
  have b1 : pf / mf < 1 := (div_lt_one hmf).2 h1
  have b0 : 0 < pf / mf := div_pos h0 hmf
  have lp : lenSq (fun i => p i / mf) = pf / mf * (pf / mf) := by
    have : lenSq p = pf * pf := by
      rw [hp, mul_self_sqrt]
      unfold lenSq
      positivity
    rw [show lenSq (fun i => p i / mf) = lenSq p / (mf * mf) by unfold lenSq; field_simp, this]
    field_simp
  have sl : √(lenSq fun i => p i / mf) = pf / mf := by rw [lp, sqrt_mul_self b0.le]
  have q1 : √(1 - pf / mf * (pf / mf)) < 1 := by
    rw [sqrt_lt' one_pos]
    nlinarith
  have q0 : 1 - pf / mf ≤ √(1 - pf / mf * (pf / mf)) := le_sqrt_of_sq_le (by nlinarith)
  have t0 : 0 < (1 - √(1 - pf / mf * (pf / mf))) / (pf / mf) := div_pos (by linarith) b0
  have t1 : (1 - √(1 - pf / mf * (pf / mf))) / (pf / mf) ≤ 1 := (div_le_one b0).2 (by linarith)
  have e1 : (1 - eg * √(1 - pf / mf * (pf / mf)) / eg) / (pf / mf) = (1 - √(1 - pf / mf * (pf / mf))) / (pf / mf) := by
    rw [mul_div_cancel_left₀ _ he.ne']
  have e2 : (eg / eg * √(1 - pf / mf * (pf / mf)) - 1) / (pf / mf) = -((1 - √(1 - pf / mf * (pf / mf))) / (pf / mf)) := by
    rw [div_self he.ne', one_mul, ← neg_div, neg_sub]
  have A := photon_law k h0 h1 he he (by rw [e1]; linarith) (by rw [e1]; exact t1)
  have B := doppler_law (β := fun i => p i / mf) (eg := eg) (E := eg) (by rw [lp]; positivity) (by rw [lp]; nlinarith) he
    (by rw [sl, lp, e2]; linarith) (by rw [sl, lp, e2]; linarith)
  rw [e1] at A
  rw [sl, lp, e2] at B
  rw [A, B]
  have half : (1 / 2 : ENNReal) = ENNReal.ofReal (1 / 2) := by
    rw [ENNReal.ofReal_div_of_pos two_pos]
    simp
  rw [half]
  exact ⟨(ENNReal.ofReal_lt_ofReal_iff (by linarith)).2 (by linarith), (ENNReal.ofReal_lt_ofReal_iff (by norm_num)).2 (by linarith)⟩

/-- A fragment at three fifths of the speed of light: two thirds of the photons are recorded with no more energy than in its frame; it should be one
third. -/
example (k : Const) : probIn (photonBoost k 3 5 1) {g | g.energy ≤ 1} = ENNReal.ofReal (2 / 3) ∧
    solid {n | doppler (fun i => (![0, 0, 3] : V3) i / 5) n 1 ≤ 1} = ENNReal.ofReal (1 / 3) := by
  have hq : √(1 - 3 / 5 * (3 / 5) : ℝ) = 4 / 5 := by
    rw [show (1 - 3 / 5 * (3 / 5) : ℝ) = (4 / 5) * (4 / 5) by norm_num]
    exact sqrt_mul_self (by norm_num)
  have lp : lenSq (fun i => (![0, 0, 3] : V3) i / 5) = 3 / 5 * (3 / 5) := by
    show ((![0, 0, 3] : V3) 0 / 5) ^ 2 + ((![0, 0, 3] : V3) 1 / 5) ^ 2 + ((![0, 0, 3] : V3) 2 / 5) ^ 2 = _
    simp
    norm_num
  have sl : √(3 / 5 * (3 / 5) : ℝ) = 3 / 5 := sqrt_mul_self (by norm_num)
  constructor
  · rw [photon_law k (by norm_num) (by norm_num) one_pos one_pos (by rw [hq]; norm_num) (by rw [hq]; norm_num), hq]
    norm_num
  · rw [doppler_law (by rw [lp]; norm_num) (by rw [lp]; norm_num) one_pos (by rw [lp, sl, hq]; norm_num) (by rw [lp, sl, hq]; norm_num),
      lp, sl, hq]
    norm_num

end CGMF.Props

import Mathlib.Analysis.SpecialFunctions.Log.Basic
import Mathlib.Analysis.Complex.ExponentialBounds
import Verif.Tactics
import Verif.Spec.FloatGauss
import Verif.Model.FloatGauss
import Verif.Proofs.Float

/-!
# C142: normally distributed numbers in double arithmetic
-/

namespace CGMF.Fp

open CGMF

/-- `2r-1` of a random number is zero or not below `2^-53`. -/
theorem isoCos_big {fl : ℝ → ℝ} (h : Double fl) {r : ℝ} (hr : IsDraw r) : isoCos fl r = 0 ∨ (2 : ℝ) ^ (-53 : Int) ≤ |isoCos fl r| := by
  obtain ⟨hd, h0, h1⟩ := hr
  have h2 : fl (2 * r) = 2 * r := by
    apply h.fix
    obtain ⟨m, e, hm, he, hx⟩ := hd
    exact ⟨m, e + 1, hm, by omega, by rw [hx, zpow_add₀ (by norm_num)]; ring⟩
  have hf : IsDouble ((2 : ℝ) ^ (-53 : Int)) := isFloat_zpow (by norm_num) (by norm_num)
  unfold isoCos
  rw [h2]
  -- the exact difference
  have key : 2 * r - 1 = 0 ∨ (2 : ℝ) ^ (-53 : Int) ≤ |2 * r - 1| := by
    rcases lt_or_ge r (1 / 4) with hq | hq
    · right
      rw [abs_of_neg (by linarith)]
      exact le_trans (by norm_num : (2 : ℝ) ^ (-53 : Int) ≤ 1 / 2) (by linarith)
    · obtain ⟨k, hk⟩ := hd.multiple (e := -54) (by rw [abs_of_nonneg h0]; norm_num; linarith)
      have e1 : 2 * r - 1 = ((k - 2 ^ 53 : Int) : ℝ) * (2 : ℝ) ^ (-53 : Int) := by
        rw [hk]; push_cast; norm_num; ring
      rcases eq_or_ne (k - 2 ^ 53) 0 with hz | hz
      · left; rw [e1, hz]; simp
      · right
        have : (1 : ℝ) ≤ |((k - 2 ^ 53 : Int) : ℝ)| := by exact_mod_cast Int.one_le_abs hz
        rw [e1, abs_mul, abs_of_pos (by positivity : (0 : ℝ) < 2 ^ (-53 : Int))]
        nlinarith [(by positivity : (0 : ℝ) < 2 ^ (-53 : Int))]
  rcases key with hz | hb
  · left; rw [hz]; exact h.fix isFloat_zero
  · right
    rcases le_total 0 (2 * r - 1) with hs | hs
    · rw [abs_of_nonneg hs] at hb
      exact (h.ge_of hf hb).trans (le_abs_self _)
    · rw [abs_of_nonpos hs] at hb
      have := h.le_of hf.neg (by linarith : 2 * r - 1 ≤ -(2 : ℝ) ^ (-53 : Int))
      exact (by linarith : (2 : ℝ) ^ (-53 : Int) ≤ -fl (2 * r - 1)).trans (neg_le_abs _)

theorem square_big {fl : ℝ → ℝ} (h : Double fl) {a : ℝ} (ha : (2 : ℝ) ^ (-53 : Int) ≤ |a|) : (2 : ℝ) ^ (-106 : Int) ≤ fl (a * a) := by
  apply h.ge_of (isFloat_zpow (by norm_num) (by norm_num))
  rw [← abs_mul_abs_self a, show (2 : ℝ) ^ (-106 : Int) = 2 ^ (-53 : Int) * 2 ^ (-53 : Int) by rw [← zpow_add₀ (by norm_num)]; norm_num]
  gcongr

theorem disc_ge {fl : ℝ → ℝ} (h : Double fl) (a b : ℝ) : fl (a * a) ≤ disc fl a b ∧ fl (b * b) ≤ disc fl a b := by
  have ha := h.nonneg (mul_self_nonneg a)
  have hb := h.nonneg (mul_self_nonneg b)
  exact ⟨h.ge_of (h.float _) (by linarith), h.ge_of (h.float _) (by linarith)⟩

/-- A sum of squares that is not zero is not below `2^-106`. -/
theorem disc_big {fl : ℝ → ℝ} (h : Double fl) {r1 r2 : ℝ} (h1 : IsDraw r1) (h2 : IsDraw r2)
    (hne : disc fl (isoCos fl r1) (isoCos fl r2) ≠ 0) : (2 : ℝ) ^ (-106 : Int) ≤ disc fl (isoCos fl r1) (isoCos fl r2) := by
  obtain ⟨g1, g2⟩ := disc_ge h (isoCos fl r1) (isoCos fl r2)
  rcases isoCos_big h h1 with ha | ha
  · rcases isoCos_big h h2 with hb | hb
    · exfalso; apply hne
      rw [ha, hb]
      unfold disc
      have : fl 0 = 0 := h.fix isFloat_zero
      simp [this]
    · exact (square_big h hb).trans g2
  · exact (square_big h ha).trans g1

theorem log_bound {q : ℝ} (hq : (2 : ℝ) ^ (-106 : Int) ≤ q) : -Real.log q ≤ 73.475 := by
  have := Real.log_le_log (by positivity) hq
  rw [Real.log_zpow] at this
  have h2 := Real.log_two_lt_d9
  push_cast at this
  linarith

/-- The smallest double, with bounds that are easier to work with. -/
theorem tiny : ∃ η : ℝ, (2 : ℝ) ^ (-1074 : Int) = η ∧ 0 < η ∧ η ≤ 1 / 2 ^ 60 := by
  refine ⟨_, rfl, by positivity, ?_⟩
  rw [show (1 / 2 ^ 60 : ℝ) = 2 ^ (-60 : Int) by norm_num]
  exact zpow_le_zpow_right₀ (by norm_num) (by norm_num)

/-- Error of a rounding, with those bounds. -/
theorem err_up {fl : ℝ → ℝ} (h : Double fl) {x : ℝ} (hx : 0 ≤ x) : fl x ≤ x * (1 + 1 / 2 ^ 53) + 1 / 2 ^ 60 := by
  have := (abs_le.1 (h.any (x := x) (by norm_num))).2
  rw [abs_of_nonneg hx] at this
  obtain ⟨η, e, h0, h1⟩ := tiny
  rw [e] at this
  norm_num at this h1 ⊢
  linarith

/-- One accepted point. -/
theorem deviate_bound {fl ln : ℝ → ℝ} (h : Double fl) (hl : IsLog ln) {a q : ℝ} (hq0 : (2 : ℝ) ^ (-106 : Int) ≤ q) (hq1 : q < 1)
    (ha : a = 0 ∨ (2 : ℝ) ^ (-53 : Int) ≤ |a|) (haq : fl (a * a) ≤ q) :
    ∃ x, deviate fl ln a q = some x ∧ |x| ≤ 97 / 8 := by
  have hq : 0 < q := lt_of_lt_of_le (by positivity) hq0
  have hlog : Real.log q < 0 := Real.log_neg hq hq1
  have hln := hl q hq hq1
  rw [abs_of_neg hlog] at hln
  have hb := log_bound hq0
  obtain ⟨l1, l2⟩ := abs_le.1 hln
  have n0 : 0 ≤ -2 * ln q := by
    have : ln q ≤ Real.log q + -Real.log q / 2 ^ 20 := by linarith
    have : Real.log q + -Real.log q / 2 ^ 20 ≤ 0 := by norm_num; linarith
    linarith
  have n1 : -2 * ln q ≤ 147 := by norm_num at l1; linarith
  have f147 : IsDouble (147 : ℝ) := by
    have := isFloat_int (p := 53) (emin := -1074) (n := 147) (by norm_num) (by norm_num) (by norm_num)
    exact_mod_cast this
  have L0 := h.nonneg n0
  have L1 := h.le_of f147 n1
  set L := fl (-2 * ln q) with hL
  have D0 : 0 ≤ L / q := div_nonneg L0 hq.le
  have d0 := h.nonneg D0
  have hiq : 1 < 1 / q := by rw [lt_div_iff₀ hq]; linarith
  have D1 : L / q ≤ 147 * (1 / q) := by rw [div_eq_mul_one_div]; gcongr
  have d1 : fl (L / q) ≤ 147 * (1 / q) * (1 + 1 / 2 ^ 50) := by
    have := err_up h D0
    norm_num at this ⊢
    norm_num at D1 hiq
    linarith
  set d := fl (L / q) with hd
  have s0 := Real.sqrt_nonneg d
  have sb : Real.sqrt d * Real.sqrt d = d := Real.mul_self_sqrt d0
  have f0 := h.nonneg s0
  refine ⟨fl (a * fl (Real.sqrt d)), ?_, ?_⟩
  · unfold deviate fdiv fsqrt
    rw [if_neg hq.ne']
    simp only [Option.bind_eq_bind, Option.bind_some]
    rw [if_neg (not_lt.2 d0)]
    rfl
  have f97 : IsDouble (97 / 8 : ℝ) := ⟨97, -3, by norm_num, by norm_num, by norm_num⟩
  apply h.abs_le_of f97
  rcases ha with ha | ha
  · rw [ha]; norm_num
  have a0 : 0 < |a| := lt_of_lt_of_le (by positivity) ha
  -- the square of a
  have A1 : a * a ≤ q * (1 + 1 / 2 ^ 50) := by
    have hbig : (2 : ℝ) ^ ((53 : Nat) - 1 + (-1074) : Int) ≤ |a * a| := by
      rw [abs_mul]
      have : (2 : ℝ) ^ ((53 : Nat) - 1 + (-1074) : Int) ≤ 2 ^ (-53 : Int) * 2 ^ (-53 : Int) := by
        rw [← zpow_add₀ (by norm_num)]
        exact zpow_le_zpow_right₀ (by norm_num) (by norm_num)
      refine this.trans ?_
      gcongr
    have := (abs_le.1 (h.relative (by norm_num) hbig)).1
    rw [abs_of_nonneg (mul_self_nonneg a)] at this
    have hx := mul_self_nonneg a
    norm_num at this ⊢
    linarith
  -- the root
  have F1 := err_up h s0
  set f := fl (Real.sqrt d) with hf
  rw [abs_mul, abs_of_nonneg f0]
  -- |a| sqrt d
  have P : |a| * Real.sqrt d ≤ 12.1244 := by
    have e : (|a| * Real.sqrt d) * (|a| * Real.sqrt d) = (a * a) * d := by
      have := abs_mul_abs_self a
      linear_combination (|a| * |a|) * sb + d * this
    have : (a * a) * d ≤ (q * (1 + 1 / 2 ^ 50)) * (147 * (1 / q) * (1 + 1 / 2 ^ 50)) := by
      gcongr
    have e2 : (q * (1 + 1 / 2 ^ 50)) * (147 * (1 / q) * (1 + 1 / 2 ^ 50)) = 147 * (1 + 1 / 2 ^ 50) * (1 + 1 / 2 ^ 50) := by
      have : q * (1 / q) = 1 := mul_one_div_cancel hq.ne'
      linear_combination (147 * (1 + 1 / 2 ^ 50) * (1 + 1 / 2 ^ 50)) * this
    rw [e2] at this
    by_contra hc
    have hc := not_le.1 hc
    have : (12.1244 : ℝ) * 12.1244 < (|a| * Real.sqrt d) * (|a| * Real.sqrt d) := by
      apply mul_self_lt_mul_self (by norm_num) hc
    norm_num at *
    linarith
  have a1 : |a| ≤ 2 := by
    have : a * a ≤ 4 := by
      norm_num at A1 ⊢; linarith
    rw [← abs_mul_abs_self a] at this
    by_contra hc
    have := mul_self_lt_mul_self (by norm_num : (0 : ℝ) ≤ 2) (not_le.1 hc)
    linarith
  calc |a| * f ≤ |a| * (Real.sqrt d * (1 + 1 / 2 ^ 53) + 1 / 2 ^ 60) := by gcongr
    _ = (|a| * Real.sqrt d) * (1 + 1 / 2 ^ 53) + |a| / 2 ^ 60 := by ring
    _ ≤ 12.1244 * (1 + 1 / 2 ^ 53) + 2 / 2 ^ 60 := by gcongr
    _ ≤ 97 / 8 := by norm_num

/-- A double below 1 is below 1 by `2^-53` at least. -/
theorem below_one {q : ℝ} (hd : IsDouble q) (hq : 0 < q) (h1 : q < 1) : (1 : ℝ) / 2 ^ 53 ≤ 1 - q := by
  rcases lt_or_ge q (1 / 2) with hh | hh
  · norm_num; linarith
  · obtain ⟨k, hk⟩ := hd.multiple (e := -53) (by rw [abs_of_pos hq]; norm_num; linarith)
    have e : q = k * (1 / 2 ^ 53 : ℝ) := by rw [hk]; norm_num
    have hk1 : k < 2 ^ 53 := by
      have : (k : ℝ) < 2 ^ 53 := by
        rw [e] at h1; norm_num at h1 ⊢; linarith
      exact_mod_cast this
    have : (k : ℝ) ≤ 2 ^ 53 - 1 := by
      have : k ≤ 2 ^ 53 - 1 := by omega
      exact_mod_cast this
    rw [e]; norm_num at this ⊢; linarith

/-- Relative error of a rounding of a number that is not tiny. -/
theorem rel {fl : ℝ → ℝ} (h : Double fl) {x : ℝ} (hx : (1 : ℝ) / 2 ^ 200 ≤ |x|) : |fl x - x| ≤ |x| / 2 ^ 53 := by
  refine h.relative (by norm_num) (le_trans ?_ hx)
  rw [show (1 / 2 ^ 200 : ℝ) = 2 ^ (-200 : Int) by norm_num]
  exact zpow_le_zpow_right₀ (by norm_num) (by norm_num)

theorem sqrt_close {d T ε : ℝ} (hd : 0 ≤ d) (hT : 0 < T) (hdT : |d - T| ≤ ε * T) : |Real.sqrt d - Real.sqrt T| ≤ ε * Real.sqrt T := by
  have hs : 0 < Real.sqrt T := Real.sqrt_pos.2 hT
  have hs0 := Real.sqrt_nonneg d
  have e : (Real.sqrt d - Real.sqrt T) * (Real.sqrt d + Real.sqrt T) = d - T := by
    have h1 := Real.mul_self_sqrt hd
    have h2 := Real.mul_self_sqrt hT.le
    linear_combination h1 - h2
  have h2 := Real.mul_self_sqrt hT.le
  rw [← e, abs_mul, abs_of_pos (by linarith : 0 < Real.sqrt d + Real.sqrt T)] at hdT
  have : |Real.sqrt d - Real.sqrt T| * Real.sqrt T ≤ ε * Real.sqrt T * Real.sqrt T := by
    have h3 := mul_nonneg (abs_nonneg (Real.sqrt d - Real.sqrt T)) hs0
    have h4 : ε * Real.sqrt T * Real.sqrt T = ε * T := by rw [mul_assoc, h2]
    rw [h4]
    linarith
  exact le_of_mul_le_mul_right this hs

/-- Errors add up. -/
theorem close_trans {x y z ε δ : ℝ} (hε : 0 ≤ ε) (h1 : |x - y| ≤ ε * |y|) (h2 : |y - z| ≤ δ * |z|) : |x - z| ≤ (ε + δ + ε * δ) * |z| := by
  have hy : |y| ≤ (1 + δ) * |z| := by
    have := abs_sub_abs_le_abs_sub y z
    linarith
  have := abs_sub_le x y z
  have := mul_le_mul_of_nonneg_left hy hε
  linarith

/-- The value returned for an accepted point. -/
theorem deviate_close {fl ln : ℝ → ℝ} (h : Double fl) (hl : IsLog ln) {a q : ℝ} (hd : IsDouble q) (hq0 : (2 : ℝ) ^ (-106 : Int) ≤ q) (hq1 : q < 1)
    (ha : a = 0 ∨ (2 : ℝ) ^ (-53 : Int) ≤ |a|) (x : ℝ) (hx : deviate fl ln a q = some x) :
    |x - a * Real.sqrt (-2 * Real.log q / q)| ≤ 1 / 2 ^ 18 * |a * Real.sqrt (-2 * Real.log q / q)| := by
  have hq : 0 < q := lt_of_lt_of_le (by positivity) hq0
  have hlog : 1 / 2 ^ 53 ≤ -Real.log q := by
    have := Real.log_le_sub_one_of_pos hq
    have := below_one hd hq hq1
    linarith
  have hpos : 0 < -Real.log q := lt_of_lt_of_le (by positivity) hlog
  have hln := hl q hq hq1
  rw [abs_of_neg (by linarith : Real.log q < 0)] at hln
  obtain ⟨l1, l2⟩ := abs_le.1 hln
  -- the exact quotient and the three steps towards it
  set M := -2 * ln q with hM
  have c1 : |M - -2 * Real.log q| ≤ 1 / 2 ^ 20 * |-2 * Real.log q| := by
    rw [abs_of_pos (by linarith : 0 < -2 * Real.log q), abs_le, hM]
    norm_num at l1 l2 ⊢
    constructor <;> linarith
  have M1 : -Real.log q ≤ M := by rw [hM]; norm_num at l2; linarith
  have Mb : (1 : ℝ) / 2 ^ 200 ≤ |M| := by
    rw [abs_of_pos (by linarith)]
    refine le_trans ?_ (hlog.trans M1)
    norm_num
  have r1 : |fl M - M| ≤ 1 / 2 ^ 53 * |M| := (rel h Mb).trans (by rw [div_eq_inv_mul, one_div])
  have L1 : -Real.log q / 2 ≤ fl M := by
    have := (abs_le.1 r1).1
    rw [abs_of_pos (by linarith : 0 < M)] at this
    norm_num at this; linarith
  have c2 := close_trans (by positivity) r1 c1
  set L := fl M with hL
  have hL0 : 0 < L := by linarith
  have c3 : |L / q - -2 * Real.log q / q| ≤ (1 / 2 ^ 53 + 1 / 2 ^ 20 + 1 / 2 ^ 53 * (1 / 2 ^ 20)) * |-2 * Real.log q / q| := by
    rw [← sub_div, abs_div, abs_div, abs_of_pos hq, ← mul_div_assoc]
    gcongr
  have D1 : L ≤ L / q := by rw [le_div_iff₀ hq]; nlinarith
  have Db : (1 : ℝ) / 2 ^ 200 ≤ |L / q| := by
    rw [abs_of_pos (by linarith)]
    refine le_trans ?_ (L1.trans D1)
    norm_num at hlog ⊢; linarith
  have r2 : |fl (L / q) - L / q| ≤ 1 / 2 ^ 53 * |L / q| := (rel h Db).trans (by rw [div_eq_inv_mul, one_div])
  have c4 := close_trans (by positivity) r2 c3
  have D2 : L / 2 ≤ fl (L / q) := by
    have := (abs_le.1 r2).1
    rw [abs_of_pos (by linarith : 0 < L / q)] at this
    norm_num at this; linarith
  set d := fl (L / q) with hdd
  have hd0 : 0 < d := by linarith
  set T := -2 * Real.log q / q with hT
  have hT0 : 0 < T := div_pos (by linarith) hq
  have c5 : |d - T| ≤ 1 / 2 ^ 19 * T := by
    rw [abs_of_pos hT0] at c4
    refine c4.trans ?_
    gcongr
    norm_num
  have c6 := sqrt_close hd0.le hT0 c5
  have sT : 0 < Real.sqrt T := Real.sqrt_pos.2 hT0
  have c6' : |Real.sqrt d - Real.sqrt T| ≤ 1 / 2 ^ 19 * |Real.sqrt T| := by rwa [abs_of_pos sT]
  have sd : (1 : ℝ) / 2 ^ 60 ≤ Real.sqrt d := by
    apply Real.le_sqrt_of_sq_le
    norm_num at hlog ⊢
    linarith
  have sd0 : 0 < Real.sqrt d := lt_of_lt_of_le (by positivity) sd
  have r3 : |fl (Real.sqrt d) - Real.sqrt d| ≤ 1 / 2 ^ 53 * |Real.sqrt d| :=
    (rel h (by rw [abs_of_pos sd0]; refine le_trans ?_ sd; norm_num)).trans (by rw [div_eq_inv_mul, one_div])
  have c7 := close_trans (by positivity) r3 c6'
  have F1 : (1 : ℝ) / 2 ^ 61 ≤ fl (Real.sqrt d) := by
    have := (abs_le.1 r3).1
    rw [abs_of_pos sd0] at this
    norm_num at this sd ⊢; linarith
  have ex : x = fl (a * fl (Real.sqrt d)) := by
    unfold deviate fdiv fsqrt at hx
    rw [if_neg hq.ne'] at hx
    simp only [Option.bind_eq_bind, Option.bind_some] at hx
    rw [if_neg (not_lt.2 hd0.le)] at hx
    exact (Option.some.inj hx).symm
  set f := fl (Real.sqrt d) with hf
  rcases ha with ha | ha
  · rw [ex, ha]
    have : fl 0 = 0 := h.fix isFloat_zero
    simp [this]
  have c8 : |a * f - a * Real.sqrt T| ≤ (1 / 2 ^ 53 + 1 / 2 ^ 19 + 1 / 2 ^ 53 * (1 / 2 ^ 19)) * |a * Real.sqrt T| := by
    rw [← mul_sub, abs_mul, abs_mul]
    have := mul_le_mul_of_nonneg_left c7 (abs_nonneg a)
    linarith
  have Xb : (1 : ℝ) / 2 ^ 200 ≤ |a * f| := by
    rw [abs_mul, abs_of_pos (lt_of_lt_of_le (by positivity) F1)]
    have : (1 : ℝ) / 2 ^ 53 * (1 / 2 ^ 61) ≤ |a| * f := by
      have : (1 : ℝ) / 2 ^ 53 ≤ |a| := le_trans (by norm_num) ha
      gcongr
    refine le_trans ?_ this
    norm_num
  have r4 : |fl (a * f) - a * f| ≤ 1 / 2 ^ 53 * |a * f| := (rel h Xb).trans (by rw [div_eq_inv_mul, one_div])
  have c9 := close_trans (by positivity) r4 c8
  rw [ex]
  refine c9.trans ?_
  gcongr
  norm_num

/-- Rounding errors of a coordinate and of the sum of squares. -/
theorem coord_close {fl : ℝ → ℝ} (h : Double fl) {r : ℝ} (hr : IsDraw r) : |isoCos fl r - (2 * r - 1)| ≤ 1 / 2 ^ 53 := by
  obtain ⟨hd, h0, h1⟩ := hr
  have h2 : fl (2 * r) = 2 * r := by
    apply h.fix
    obtain ⟨m, e, hm, he, hx⟩ := hd
    exact ⟨m, e + 1, hm, by omega, by rw [hx, zpow_add₀ (by norm_num)]; ring⟩
  unfold isoCos
  rw [h2]
  have := h.error (x := 2 * r - 1) (e := -53) (by norm_num) (by norm_num) (by norm_num; rw [abs_le]; constructor <;> linarith)
  norm_num at this ⊢
  linarith

theorem disc_close {fl : ℝ → ℝ} (h : Double fl) {r1 r2 : ℝ} (h1 : IsDraw r1) (h2 : IsDraw r2) :
    |disc fl (isoCos fl r1) (isoCos fl r2) - ((2 * r1 - 1) ^ 2 + (2 * r2 - 1) ^ 2)| ≤ 1 / 2 ^ 49 := by
  have sq {r : ℝ} (hr : IsDraw r) : |fl (isoCos fl r * isoCos fl r) - (2 * r - 1) ^ 2| ≤ 1 / 2 ^ 51 ∧ |isoCos fl r| ≤ 1 := by
    have c := coord_close h hr
    obtain ⟨hd, g0, g1⟩ := hr
    have one : IsDouble (1 : ℝ) := by
      have := isFloat_int (p := 53) (emin := -1074) (n := 1) (by norm_num) (by norm_num) (by norm_num)
      exact_mod_cast this
    have h2 : fl (2 * r) = 2 * r := by
      apply h.fix
      obtain ⟨m, e, hm, he, hx⟩ := hd
      exact ⟨m, e + 1, hm, by omega, by rw [hx, zpow_add₀ (by norm_num)]; ring⟩
    have ab : |isoCos fl r| ≤ 1 := by
      unfold isoCos; rw [h2]
      exact h.abs_le_of one (by rw [abs_le]; constructor <;> linarith)
    refine ⟨?_, ab⟩
    set y := isoCos fl r
    have hy2 : |y * y| ≤ 1 := by rw [abs_mul]; nlinarith [abs_nonneg y]
    have e1 := h.error (x := y * y) (e := -53) (by norm_num) (by norm_num) (by norm_num at hy2 ⊢; linarith)
    have e2 : |y * y - (2 * r - 1) ^ 2| ≤ 1 / 2 ^ 53 * 2 := by
      rw [show y * y - (2 * r - 1) ^ 2 = (y - (2 * r - 1)) * (y + (2 * r - 1)) by ring, abs_mul]
      have : |y + (2 * r - 1)| ≤ 2 := by
        have := abs_le.1 ab
        rw [abs_le]; constructor <;> linarith
      gcongr
    have := abs_sub_le (fl (y * y)) (y * y) ((2 * r - 1) ^ 2)
    norm_num at e1 e2 this ⊢
    linarith
  obtain ⟨e1, b1⟩ := sq h1
  obtain ⟨e2, b2⟩ := sq h2
  have q1 : |(2 * r1 - 1) ^ 2| ≤ 1 := by
    obtain ⟨_, g0, g1⟩ := h1
    rw [abs_le]; constructor <;> nlinarith
  have q2 : |(2 * r2 - 1) ^ 2| ≤ 1 := by
    obtain ⟨_, g0, g1⟩ := h2
    rw [abs_le]; constructor <;> nlinarith
  unfold disc
  set u := fl (isoCos fl r1 * isoCos fl r1)
  set v := fl (isoCos fl r2 * isoCos fl r2)
  have w := abs_le.1 e1
  have w' := abs_le.1 e2
  have z := abs_le.1 q1
  have z' := abs_le.1 q2
  have e3 := h.error (x := u + v) (e := -51) (by norm_num) (by norm_num) (by rw [abs_le]; norm_num at w w' ⊢; constructor <;> linarith)
  have w3 := abs_le.1 e3
  rw [abs_le]
  norm_num at w w' w3 ⊢
  constructor <;> linarith

end CGMF.Fp

namespace CGMF.Props

open CGMF.Fp

/-- **C142.**  Whatever the random numbers, a normally distributed number that is returned is a number, and at most 12.125 widths
from the mean. -/
theorem C142_gaussian {fl ln : ℝ → ℝ} (h : Double fl) (hl : IsLog ln) (s : List ℝ) (hs : ∀ r ∈ s, IsDraw r) (g : Option ℝ) (rest : List ℝ)
    (hg : polar fl ln s = .ok (g, rest)) : ∃ x, g = some x ∧ |x| ≤ 97 / 8 := by
  fun_induction polar fl ln s with
  | case1 r1 r2 s a b hc ih => exact ih (fun r hr => hs r (by simp [hr])) hg
  | case2 r1 r2 s a b hc =>
    have h1 := hs r1 (by simp)
    have h2 := hs r2 (by simp)
    obtain ⟨c1, c2⟩ := not_or.1 hc
    obtain ⟨x, hx, hb⟩ := deviate_bound h hl (disc_big h h1 h2 c1) (not_le.1 c2) (isoCos_big h h1) (disc_ge h _ _).1
    cases hg
    exact ⟨x, hx, hb⟩
  | case3 => cases hg

/-- **C142.**  The number returned is, up to a relative error of `2^-18` (the accuracy assumed of the logarithm), the one that the
polar method asks for at a point of the disc whose coordinates and squared distance are those of two random numbers up to `2^-49`. -/
theorem C142_value {fl ln : ℝ → ℝ} (h : Double fl) (hl : IsLog ln) (s : List ℝ) (hs : ∀ r ∈ s, IsDraw r) (x : ℝ) (rest : List ℝ)
    (hg : polar fl ln s = .ok (some x, rest)) :
    ∃ (r1 r2 : ℝ) (skipped : List ℝ) (a q : ℝ), s = skipped ++ r1 :: r2 :: rest ∧ |a - (2 * r1 - 1)| ≤ 1 / 2 ^ 53 ∧
      |q - ((2 * r1 - 1) ^ 2 + (2 * r2 - 1) ^ 2)| ≤ 1 / 2 ^ 49 ∧ 0 < q ∧ q < 1 ∧
      |x - a * Real.sqrt (-2 * Real.log q / q)| ≤ 1 / 2 ^ 18 * |a * Real.sqrt (-2 * Real.log q / q)| := by
  fun_induction polar fl ln s with
  | case1 r1 r2 s a b hc ih =>
    obtain ⟨q1, q2, sk, a, q, e, rest⟩ := ih (fun r hr => hs r (by simp [hr])) hg
    exact ⟨q1, q2, r1 :: r2 :: sk, a, q, by rw [e]; rfl, rest⟩
  | case2 r1 r2 s a b hc =>
    have h1 := hs r1 (by simp)
    have h2 := hs r2 (by simp)
    obtain ⟨c1, c2⟩ := not_or.1 hc
    have big := disc_big h h1 h2 c1
    injection hg with hg
    injection hg with hg hr
    subst hr
    exact ⟨r1, r2, [], _, _, rfl, coord_close h h1, disc_close h h1 h2, lt_of_lt_of_le (by positivity) big, not_le.1 c2,
      deviate_close h hl (h.float _) big (not_le.1 c2) (isoCos_big h h1) x hg⟩
  | case3 => cases hg

/-- **C142.**  The loop stops at the first point inside the disc; on numbers that end before one is found it asks for more. -/
theorem C142_stops {fl ln : ℝ → ℝ} (s : List ℝ) :
    (∃ g rest, polar fl ln s = .ok (g, rest) ∧ ∃ r1 r2 skipped, s = skipped ++ r1 :: r2 :: rest) ∨ polar fl ln s = .more := by
  fun_induction polar fl ln s with
  | case1 r1 r2 s a b hc ih =>
    rcases ih with ⟨g, rest, e, q1, q2, sk, hsk⟩ | e
    · exact .inl ⟨g, rest, e, q1, q2, r1 :: r2 :: sk, by rw [hsk]; rfl⟩
    · exact .inr e
  | case2 r1 r2 s a b hc => exact .inl ⟨_, _, rfl, r1, r2, [], rfl⟩
  | case3 => exact .inr rfl

/-- **C142.**  A total kinetic energy drawn is a number, and is within 12.126 widths of the rescaled average. -/
theorem C142_tke {fl ln : ℝ → ℝ} (h : Double fl) (hl : IsLog ln) (resc t w : ℝ) (hm : |resc * t| ≤ 512) (hw : 0 ≤ w) (hw' : w ≤ 32)
    (s : List ℝ) (hs : ∀ r ∈ s, IsDraw r) (e : Option ℝ) (rest : List ℝ) (he : polarTKE fl ln resc t w s = .ok (e, rest)) :
    ∃ x, e = some x ∧ |x - resc * t| ≤ 12.125 * w + 1 / 2 ^ 40 := by
  unfold polarTKE at he
  split at he <;> cases he
  rename_i g rest hg
  obtain ⟨x, rfl, hx⟩ := C142_gaussian h hl s hs _ _ hg
  refine ⟨_, rfl, ?_⟩
  have hwx : |w * x| ≤ 12.125 * w := by
    rw [abs_mul, abs_of_nonneg hw]; norm_num at hx ⊢; nlinarith
  have hwx' : |w * x| ≤ 512 := hwx.trans (by norm_num; linarith)
  have c (y : ℝ) (hy : |y| ≤ 2048) : |fl y - y| ≤ 1 / 2 ^ 42 := by
    have := h.error (x := y) (e := -42) (by norm_num) (by norm_num) (by norm_num; linarith)
    norm_num at this ⊢; linarith
  have e1 := c (resc * t) (by linarith)
  have e2 := c (w * x) (by linarith)
  have b1 := abs_le.1 e1
  have b2 := abs_le.1 e2
  have b3 := abs_le.1 hm
  have b4 := abs_le.1 hwx'
  have e3 := c (fl (resc * t) + fl (w * x)) (by rw [abs_le]; norm_num at b1 b2 ⊢; constructor <;> linarith)
  have b5 := abs_le.1 e3
  have b6 := abs_le.1 hwx
  rw [abs_le]
  norm_num at b1 b2 b5 b6 ⊢
  constructor <;> linarith

/-- **C142.**  When the average is more than 12.13 widths above zero, no draw gives a kinetic energy of zero or below. -/
theorem C142_positive {fl ln : ℝ → ℝ} (h : Double fl) (hl : IsLog ln) (resc t w : ℝ) (hm : |resc * t| ≤ 512) (hw : 1 / 100 ≤ w) (hw' : w ≤ 32)
    (hpos : 12.13 * w < resc * t)
    (s : List ℝ) (hs : ∀ r ∈ s, IsDraw r) (e : Option ℝ) (rest : List ℝ) (he : polarTKE fl ln resc t w s = .ok (e, rest)) :
    ∃ x, e = some x ∧ 0 < x := by
  obtain ⟨x, hx, hb⟩ := C142_tke h hl resc t w hm (by linarith) hw' s hs e rest he
  refine ⟨x, hx, ?_⟩
  have := (abs_le.1 hb).1
  norm_num at this hpos hw
  linarith

/-- The exact logarithm is one with six digits, and rounding to the nearest double is a rounding. -/
example : IsLog Real.log := fun q _ _ => by simp only [sub_self, abs_zero]; positivity

/-- An average of 171 MeV with a width of 9 MeV. -/
example (s : List ℝ) (hs : ∀ r ∈ s, IsDraw r) (e : Option ℝ) (rest : List ℝ)
    (he : polarTKE (roundTo 53 (-1074)) Real.log 1 171 9 s = .ok (e, rest)) : ∃ x, e = some x ∧ 0 < x :=
  C142_positive (nearest_roundTo (by norm_num)) (fun q _ _ => by simp only [sub_self, abs_zero]; positivity) 1 171 9
    (by norm_num) (by norm_num) (by norm_num) (by norm_num) s hs e rest he

/-- The point with coordinates 1/2 and 0 is accepted. -/
example : ∃ g, polar (roundTo 53 (-1074)) Real.log [3 / 4, 1 / 2, 1 / 8] = .ok (g, [1 / 8]) := by
  have h : Double (roundTo 53 (-1074)) := nearest_roundTo (by norm_num)
  have f1 : roundTo 53 (-1074) (2 * (3 / 4)) = 3 / 2 := by
    rw [show (2 * (3 / 4) : ℝ) = 3 / 2 by norm_num]; exact h.fix ⟨3, -1, by norm_num, by norm_num, by norm_num⟩
  have f2 : roundTo 53 (-1074) (3 / 2 - 1) = 1 / 2 := by
    rw [show (3 / 2 - 1 : ℝ) = 1 / 2 by norm_num]; exact h.fix ⟨1, -1, by norm_num, by norm_num, by norm_num⟩
  have f3 : roundTo 53 (-1074) (2 * (1 / 2)) = 1 := by
    rw [show (2 * (1 / 2) : ℝ) = 1 by norm_num]; exact h.fix ⟨1, 0, by norm_num, by norm_num, by norm_num⟩
  have f0 : roundTo 53 (-1074) 0 = 0 := h.fix isFloat_zero
  have f4 : roundTo 53 (-1074) (1 / 2 * (1 / 2)) = 1 / 4 := by
    rw [show (1 / 2 * (1 / 2) : ℝ) = 1 / 4 by norm_num]; exact h.fix ⟨1, -2, by norm_num, by norm_num, by norm_num⟩
  have f5 : roundTo 53 (-1074) (1 / 4) = 1 / 4 := h.fix ⟨1, -2, by norm_num, by norm_num, by norm_num⟩
  have c1 : isoCos (roundTo 53 (-1074)) (3 / 4) = 1 / 2 := by unfold isoCos; rw [f1, f2]
  have c2 : isoCos (roundTo 53 (-1074)) (1 / 2) = 0 := by unfold isoCos; rw [f3, sub_self, f0]
  have c3 : disc (roundTo 53 (-1074)) (1 / 2) 0 = 1 / 4 := by unfold disc; rw [f4, mul_zero, f0, add_zero, f5]
  rw [polar, c1, c2, c3]
  rw [if_neg (by norm_num)]
  exact ⟨_, rfl⟩

end CGMF.Props

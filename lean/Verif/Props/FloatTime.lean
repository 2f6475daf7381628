import Verif.Model.FloatTime
import Verif.Props.FloatPick
import Verif.Props.FloatGauss
import Verif.Props.FloatPhoton
import Verif.Props.FloatShare
import Mathlib.Analysis.SpecialFunctions.Log.Deriv

/-!
# C152: times follow the half-lives over all random bits
-/

namespace CGMF.Props

open CGMF CGMF.Fp CGMF.Twist CGMF.Pick

variable {fl ln : ℝ → ℝ}

theorem log_two_tight : |6931471805599453 / 10 ^ 16 - Real.log 2| ≤ 1 / 2 ^ 55 := by
  have h := Real.abs_log_sub_add_sum_range_le (x := 1 / 2) (by norm_num [abs_of_pos]) 60
  have e : Real.log (1 - 1 / 2) = -Real.log 2 := by
    rw [show (1 : ℝ) - 1 / 2 = 2⁻¹ by norm_num, Real.log_inv]
  rw [e] at h
  simp only [Finset.sum_range_succ, Finset.sum_range_zero] at h
  rw [abs_of_pos (show (0 : ℝ) < 1 / 2 by norm_num)] at h
  obtain ⟨a, b⟩ := abs_le.1 h
  rw [abs_le]
  norm_num at a b ⊢
  constructor <;> linarith

theorem log2_agree (h : Double fl) : Agree 2 (log2 fl) (Real.log 2) := by
  have a := h.any (x := 6931471805599453 / 10 ^ 16) (by norm_num)
  have t : (2 : ℝ) ^ (-1074 : Int) / 2 ≤ 1 / 2 ^ 90 := by
    have := tiny
    have t' : (1 : ℝ) / 2 ^ 53 / 2 ^ 400 / 8 ≤ 1 / 2 ^ 53 / 2 ^ 40 / 8 :=
      div_le_div_of_nonneg_right (div_le_div_of_nonneg_left (by positivity) (by positivity) (pow_le_pow_right₀ (by norm_num) (by norm_num))) (by norm_num)
    refine (this.trans t').trans ?_
    norm_num
  obtain ⟨c1, c2⟩ := abs_le.1 log_two_tight
  have L1 := Real.log_two_gt_d9
  unfold log2
  generalize (2 : ℝ) ^ (-1074 : Int) = z at *
  rw [abs_of_pos (show (0 : ℝ) < 6931471805599453 / 10 ^ 16 by norm_num)] at a
  obtain ⟨a1, a2⟩ := abs_le.1 a
  generalize fl (6931471805599453 / 10 ^ 16) = y at *
  generalize Real.log 2 = L at *
  norm_num at a1 a2 c1 c2 t L1
  refine ⟨by linarith, by linarith, ?_, ?_⟩ <;> norm_num <;> linarith

theorem exp_shift {a k : ℝ} (ha : 0 ≤ a) (k0 : 0 ≤ k) (k1 : k ≤ 1 / 4) :
    Real.exp (-(a / (1 + k))) ≤ Real.exp (-a) + 2 * k ∧ Real.exp (-a) - 2 * k ≤ Real.exp (-(a / (1 - k))) := by
  have peak : ∀ b : ℝ, b * Real.exp (-b) ≤ 1 := fun b => by
    rw [Real.exp_neg, ← div_eq_mul_inv, div_le_one (Real.exp_pos _)]
    linarith [Real.add_one_le_exp b]
  have gen : ∀ b c : ℝ, 0 ≤ b → c ≤ 2 * k → Real.exp (-b) - Real.exp (-(b * (1 + c))) ≤ 2 * k := by
    intro b c b0 c1
    have e : Real.exp (-(b * (1 + c))) = Real.exp (-b) * Real.exp (-(b * c)) := by rw [← Real.exp_add]; congr 1; ring
    rw [e]
    have l := Real.add_one_le_exp (-(b * c))
    have p := Real.exp_pos (-b)
    have m := mul_le_mul_of_nonneg_left l p.le
    have q := peak b
    have bp : 0 ≤ b * Real.exp (-b) := mul_nonneg b0 p.le
    have : b * Real.exp (-b) * c ≤ b * Real.exp (-b) * (2 * k) := mul_le_mul_of_nonneg_left c1 bp
    have : b * Real.exp (-b) * (2 * k) ≤ 1 * (2 * k) := mul_le_mul_of_nonneg_right q (by linarith)
    have r : Real.exp (-b) * (-(b * c) + 1) = Real.exp (-b) - b * Real.exp (-b) * c := by ring
    linarith
  constructor
  · have := gen (a / (1 + k)) k (by positivity) (by linarith)
    rw [div_mul_cancel₀ a (by linarith : 1 + k ≠ 0)] at this
    linarith
  · have hk : 0 < 1 - k := by linarith
    have := gen a (k / (1 - k)) ha (by rw [div_le_iff₀ hk]; nlinarith)
    have e : a * (1 + k / (1 - k)) = a / (1 - k) := by field_simp; ring
    rw [e] at this
    linarith

/-- The computed delay against the exact one. -/
theorem delay_close (h : Double fl) {η : ℝ} (η0 : 0 ≤ η) (η1 : η ≤ 1 / 2 ^ 10) (hln : ∀ r, 0 < r → r < 1 → |ln r - Real.log r| ≤ η * |Real.log r|)
    {T : ℝ} (lo : (2 : ℝ) ^ (-300 : Int) ≤ T) (hi : T ≤ 2 ^ 300) {r : ℝ} (hd : IsDouble r) (r0 : 0 < r) (r1 : r < 1) :
    |fl (fl (-ln r * T) / log2 fl) - -Real.log r * T / Real.log 2| ≤ (η + 7 / 2 ^ 53) * (-Real.log r * T / Real.log 2) := by
  have T0 : 0 < T := lt_of_lt_of_le (by positivity) lo
  have L0 : 0 < Real.log 2 := Real.log_pos (by norm_num)
  have L1 := Real.log_two_lt_d9
  have l0 : 1 / 2 ^ 53 ≤ -Real.log r := by
    have := Real.log_le_sub_one_of_pos r0
    have := below_one hd r1
    linarith
  have lp : 0 < -Real.log r := lt_of_lt_of_le (by positivity) l0
  have m := hln r r0 r1
  rw [abs_of_neg (by linarith : Real.log r < 0)] at m
  obtain ⟨m1, m2⟩ := abs_le.1 m
  have ηl : η * -Real.log r ≤ 1 / 2 ^ 10 * -Real.log r := mul_le_mul_of_nonneg_right η1 lp.le
  obtain ⟨l, hl⟩ : ∃ l, Real.log r = -l := ⟨-Real.log r, by ring⟩
  rw [hl] at l0 lp m m1 m2 ηl ⊢
  rw [neg_neg] at l0 lp m m1 m2 ηl ⊢
  have ml : 1 / 2 ^ 54 ≤ -ln r := by
    clear * - l0 m1 m2 ηl lp
    norm_num at *; linarith
  have M0 : 0 < -ln r := lt_of_lt_of_le (by positivity) ml
  have eu : -ln r ≤ (1 + η) * l := by linarith
  have el : (1 - η) * l ≤ -ln r := by linarith
  generalize -ln r = m at *
  have e3 : (2 : ℝ) ^ (-354 : Int) = 1 / 2 ^ 54 * 2 ^ (-300 : Int) := by
    rw [show (1 : ℝ) / 2 ^ 54 = 2 ^ (-54 : Int) by norm_num, ← zpow_add₀ (by norm_num)]; norm_num
  have p0 : (2 : ℝ) ^ (-354 : Int) ≤ m * T := by rw [e3]; exact mul_le_mul ml lo (by positivity) M0.le
  have p1 : (2 : ℝ) ^ (-400 : Int) ≤ m * T := (zpow_le_zpow_right₀ (by norm_num) (by norm_num)).trans p0
  have A := (agree_fl h p1).div (log2_agree h)
  have big : (2 : ℝ) ^ (-400 : Int) ≤ fl (m * T) / log2 fl := by
    have q := A.2.2.1
    have d : m * T ≤ m * T / Real.log 2 := by rw [le_div_iff₀ L0]; nlinarith [mul_pos M0 T0]
    have e : (2 : ℝ) ^ (-400 : Int) ≤ 2 ^ (-354 : Int) * (1 / 2) := by
      rw [show (1 : ℝ) / 2 = 2 ^ (-1 : Int) by norm_num, ← zpow_add₀ (by norm_num)]
      exact zpow_le_zpow_right₀ (by norm_num) (by norm_num)
    have f : (1 / 2 : ℝ) ≤ (1 - 1 / 2 ^ 53) ^ (1 + 2) := by norm_num
    have g : m * T / Real.log 2 * (1 / 2) ≤ m * T / Real.log 2 * (1 - 1 / 2 ^ 53) ^ (1 + 2) := mul_le_mul_of_nonneg_left f (by positivity)
    linarith
  have err := ((A.round h big).mono (k := 5) (by norm_num)).error
  have D0 : 0 ≤ l * T / Real.log 2 := by positivity
  have u : m * T / Real.log 2 ≤ (1 + η) * (l * T / Real.log 2) := by
    have := div_le_div_of_nonneg_right (mul_le_mul_of_nonneg_right eu T0.le) L0.le
    refine this.trans (le_of_eq ?_); ring
  have v : (1 - η) * (l * T / Real.log 2) ≤ m * T / Real.log 2 := by
    have := div_le_div_of_nonneg_right (mul_le_mul_of_nonneg_right el T0.le) L0.le
    refine le_trans (le_of_eq ?_) this; ring
  obtain ⟨err1, err2⟩ := abs_le.1 err
  have ηD : η * (l * T / Real.log 2) ≤ 1 / 2 ^ 10 * (l * T / Real.log 2) := mul_le_mul_of_nonneg_right η1 D0
  generalize fl (fl (m * T) / log2 fl) = d at *
  generalize l * T / Real.log 2 = D at *
  generalize m * T / Real.log 2 = D' at *
  clear * - err1 err2 u v ηD D0
  rw [abs_le]
  norm_num at *
  constructor <;> linarith

/-- **C152.** The time spent in a level with half-life `T` exceeds `x` with the chance `2^(-x/T)`, up to four times the relative error of the
logarithm of the library and 31 units of `2^-53`. -/
theorem C152_time (h : Double fl) {η : ℝ} (η0 : 0 ≤ η) (η1 : η ≤ 1 / 2 ^ 10) (hln : ∀ r, 0 < r → r < 1 → |ln r - Real.log r| ≤ η * |Real.log r|)
    {T : ℝ} (lo : (2 : ℝ) ^ (-300 : Int) ≤ T) (hi : T ≤ 2 ^ 300) {x : ℝ} (hx : 0 ≤ x) :
    |chance (fun w => (x : WithTop ℝ) < delay fl ln T w) - (2 : ℝ) ^ (-x / T)| ≤ 4 * η + 31 / 2 ^ 53 := by
  have T0 : 0 < T := lt_of_lt_of_le (by positivity) lo
  have L0 : 0 < Real.log 2 := Real.log_pos (by norm_num)
  set k := η + 7 / 2 ^ 53 with hk
  have k0 : 0 ≤ k := by positivity
  have k1 : k ≤ 1 / 4 := by norm_num at *; linarith
  set a := x * Real.log 2 / T with ha
  have a0 : 0 ≤ a := by positivity
  obtain ⟨up, dn⟩ := exp_shift a0 k0 k1
  have ey : (2 : ℝ) ^ (-x / T) = Real.exp (-a) := by
    rw [Real.rpow_def_of_pos (by norm_num)]; congr 1; rw [ha]; ring
  have y1 : Real.exp (-a) ≤ 1 := by rw [Real.exp_le_one_iff]; linarith
  have y0 := Real.exp_pos (-a)
  have key := chance_interval (E := fun w => (x : WithTop ℝ) < delay fl ln T w) (a := 0) (b := Real.exp (-a)) (ε := 2 * k + 1 / 2 ^ 53)
    le_rfl y0.le y1 (by positivity) ?_ ?_
  · rw [ey, ← sub_zero (Real.exp (-a))]
    refine key.trans ?_
    rw [hk]
    norm_num at *
    linarith
  · intro w hw
    obtain ⟨near1, near2⟩ := abs_le.1 (rng_near h w)
    have u0 : (0 : ℝ) ≤ 1 / 2 ^ 53 := by positivity
    have v0 : (0 : ℝ) ≤ (value w : ℝ) / 2 ^ 64 := by positivity
    refine ⟨by linarith, ?_⟩
    obtain ⟨rd, r0, r1⟩ := rng_range h w
    rcases r0.eq_or_lt with rz | rp
    · rw [← rz] at near1
      linarith
    · unfold delay at hw
      rw [if_neg rp.ne', WithTop.coe_lt_coe] at hw
      have c := (abs_le.1 (delay_close h η0 η1 hln lo hi rd rp r1)).2
      rw [← hk] at c
      have g : x < (1 + k) * (-Real.log (rng fl w) * T / Real.log 2) := by linarith
      have g' : a / (1 + k) < -Real.log (rng fl w) := by
        rw [ha, div_lt_iff₀ (by linarith), div_lt_iff₀ T0]
        have := mul_lt_mul_of_pos_right g L0
        have e : (1 + k) * (-Real.log (rng fl w) * T / Real.log 2) * Real.log 2 = -Real.log (rng fl w) * (1 + k) * T := by field_simp
        linarith
      have : rng fl w ≤ Real.exp (-(a / (1 + k))) := by
        rw [← Real.log_le_iff_le_exp rp]; linarith
      linarith
  · intro w _ w2
    obtain ⟨near1, near2⟩ := abs_le.1 (rng_near h w)
    have u0 : (0 : ℝ) ≤ 1 / 2 ^ 53 := by positivity
    obtain ⟨rd, r0, r1⟩ := rng_range h w
    unfold delay
    rcases r0.eq_or_lt with rz | rp
    · rw [if_pos rz.symm]
      exact WithTop.coe_lt_top _
    · rw [if_neg rp.ne', WithTop.coe_lt_coe]
      have c := (abs_le.1 (delay_close h η0 η1 hln lo hi rd rp r1)).1
      rw [← hk] at c
      have : rng fl w < Real.exp (-(a / (1 - k))) := by linarith
      rw [← Real.log_lt_iff_lt_exp rp] at this
      have g' : a / (1 - k) < -Real.log (rng fl w) := by linarith
      rw [ha, div_lt_iff₀ (by linarith), div_lt_iff₀ T0] at g'
      have e : (1 - k) * (-Real.log (rng fl w) * T / Real.log 2) * Real.log 2 = -Real.log (rng fl w) * (1 - k) * T := by field_simp
      have g : x < (1 - k) * (-Real.log (rng fl w) * T / Real.log 2) := by
        refine lt_of_mul_lt_mul_right ?_ L0.le
        linarith
      linarith

/-- **C152.** A cascade that starts in a level with half-life `T` is cut by a coincidence window `x` before the first photon with the chance
`2^(-x/T)`. -/
theorem C152_window (h : Double fl) {η : ℝ} (η0 : 0 ≤ η) (η1 : η ≤ 1 / 2 ^ 10) (hln : ∀ r, 0 < r → r < 1 → |ln r - Real.log r| ≤ η * |Real.log r|)
    {T : ℝ} (lo : (2 : ℝ) ^ (-300 : Int) ≤ T) (hi : T ≤ 2 ^ 300) {x : ℝ} (hx : 0 < x) :
    |chance (fun w => late x (stamp fl ln T (0 : ℝ) w)) - (2 : ℝ) ^ (-x / T)| ≤ 4 * η + 31 / 2 ^ 53 := by
  have T0 : 0 < T := lt_of_lt_of_le (by positivity) lo
  rw [chance_congr (F := fun w => (x : WithTop ℝ) < delay fl ln T w) fun w => ?_]
  · exact C152_time h η0 η1 hln lo hi hx.le
  · unfold late stamp
    rw [if_pos T0, and_iff_right hx]
    unfold delay
    split_ifs with e
    · exact Iff.rfl
    · show (x : WithTop ℝ) < ((fl (0 + fl _) : ℝ) : WithTop ℝ) ↔ _
      rw [zero_add, h.fix (h.float _)]

/-- **C152.** Times never decrease along a cascade. -/
theorem C152_rises (h : Double fl) (hln : ∀ r, 0 < r → r < 1 → ln r ≤ 0) {T t : ℝ} (ht : IsDouble t) (w : Pair) :
    (t : WithTop ℝ) ≤ stamp fl ln T t w := by
  unfold stamp
  split_ifs with T0
  · unfold delay
    obtain ⟨rd, r0, r1⟩ := rng_range h w
    rcases r0.eq_or_lt with rz | rp
    · rw [if_pos rz.symm]; exact le_top
    · rw [if_neg rp.ne']
      show (t : WithTop ℝ) ≤ ((fl (t + fl _) : ℝ) : WithTop ℝ)
      rw [WithTop.coe_le_coe]
      refine h.ge_of ht ?_
      have : 0 ≤ fl (fl (-ln (rng fl w) * T) / log2 fl) :=
        h.nonneg (div_nonneg (h.nonneg (mul_nonneg (by linarith [hln _ rp r1]) T0.le)) (h.nonneg (by norm_num)))
      linarith
  · exact le_rfl

/-- A level with a half-life of 10 ns and a window of 20 ns: one cascade in four is cut. -/
example (h : Double fl) (hln : ∀ r, 0 < r → r < 1 → |ln r - Real.log r| ≤ 1 / 2 ^ 52 * |Real.log r|) :
    |chance (fun w => late 20 (stamp fl ln 10 (0 : ℝ) w)) - 1 / 4| ≤ 39 / 2 ^ 53 := by
  have := C152_window h (T := 10) (x := 20) (by positivity) (by norm_num) hln
    (by rw [zpow_neg]; exact (inv_le_one_of_one_le₀ (one_le_pow₀ (by norm_num))).trans (by norm_num))
    ((show (10 : ℝ) ≤ 2 ^ 4 by norm_num).trans (pow_le_pow_right₀ (by norm_num) (by norm_num))) (by norm_num)
  norm_num at *
  exact this

end CGMF.Props

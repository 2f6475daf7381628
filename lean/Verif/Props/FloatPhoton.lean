import Verif.Model.FloatPhoton
import Verif.Props.Float
import Verif.Props.FloatDirection

/-!
# C133: photons in the laboratory, in double arithmetic
-/

namespace CGMF.Props

open CGMF.Fp

variable {fl : ℝ → ℝ}

/-- A library whose results are accurate to `2^-50`: cosine of the arc cosine, and the Pythagorean identities. -/
structure Accurate (L : Library) : Prop where
  cos_acos : ∀ c, |c| ≤ 1 → |L.cos (L.acos c) - c| ≤ 1 / 2 ^ 50
  cos_le : ∀ x, |L.cos x| ≤ 1
  sin_acos : ∀ c, |c| ≤ 1 → |L.sin (L.acos c) * L.sin (L.acos c) + c * c - 1| ≤ 1 / 2 ^ 50
  circle : ∀ x, |L.sin x * L.sin x + L.cos x * L.cos x - 1| ≤ 1 / 2 ^ 50

/-- The relativistic Doppler shift at velocity `β` and cosine `c`. -/
noncomputable def shift (β c : ℝ) : ℝ := Real.sqrt (1 - β * β) / (1 - β * c)

/-- Error of a rounding of a number up to 2. -/
theorem err2 (h : Double fl) {x : ℝ} (hx : |x| ≤ 2) : |fl x - x| ≤ 1 / 2 ^ 53 := by
  have := h.error (x := x) (e := -52) (by omega) (by omega) (by norm_num at hx ⊢; exact hx)
  norm_num at this ⊢
  linarith

/-- Relative error of a rounding of a positive number that is not tiny. -/
theorem rel53 (h : Double fl) {x : ℝ} (hx : (2 : ℝ) ^ (-400 : Int) ≤ x) : |fl x - x| ≤ x / 2 ^ 53 := by
  have h0 : 0 < x := lt_of_lt_of_le (by positivity) hx
  have a := h.relative (x := x) (by omega)
    (by rw [abs_of_pos h0]; exact (zpow_le_zpow_right₀ (by norm_num) (by norm_num)).trans hx)
  rwa [abs_of_pos h0] at a

/-- The exact shift at up to half the speed of light. -/
theorem shift_range {β c : ℝ} (h0 : 0 ≤ β) (h1 : β ≤ 1 / 2) (hc : |c| ≤ 1) : 0.57 ≤ shift β c ∧ shift β c ≤ 1.74 := by
  obtain ⟨c1, c2⟩ := abs_le.1 hc
  have d1 : 1 / 2 ≤ 1 - β * c := by nlinarith
  have d2 : 1 - β * c ≤ 3 / 2 := by nlinarith
  have hs : 0 ≤ 1 - β * β := by nlinarith
  unfold shift
  constructor
  · rw [le_div_iff₀ (by linarith)]
    have : (0.86 : ℝ) ≤ Real.sqrt (1 - β * β) := Real.le_sqrt_of_sq_le (by norm_num; nlinarith)
    norm_num at this ⊢
    linarith
  · rw [div_le_iff₀ (by linarith)]
    refine Real.sqrt_le_iff.2 ⟨by norm_num; linarith, ?_⟩
    have a : 1 - β ≤ 1 - β * c := by nlinarith
    have b : (1 - β) ^ 2 ≤ (1 - β * c) ^ 2 := by nlinarith
    norm_num
    nlinarith

/-- The velocity in units of that of light, rounded. -/
theorem velocity_close (h : Double fl) {β : ℝ} (h0 : 0 ≤ β) (h1 : β ≤ 1 / 2) : 0 ≤ fl β ∧ fl β ≤ 1 / 2 ∧ |fl β - β| ≤ 1 / 2 ^ 53 := by
  refine ⟨h.nonneg h0, h.le_of ?_ h1, err2 h (by rw [abs_of_nonneg h0]; linarith)⟩
  have := isFloat_zpow (p := 53) (emin := -1074) (e := -1) (by omega) (by omega)
  norm_num at this ⊢
  exact this

/-- Two square roots of numbers that are close. -/
theorem sqrt_close {a A ε : ℝ} (ha : 0 ≤ a) (hA : 3 / 4 ≤ A) (h : |a - A| ≤ ε) : |Real.sqrt a - Real.sqrt A| ≤ ε / 0.86 := by
  have S0 : (0.86 : ℝ) ≤ Real.sqrt A := Real.le_sqrt_of_sq_le (by norm_num; linarith)
  have e : (Real.sqrt a - Real.sqrt A) * (Real.sqrt a + Real.sqrt A) = a - A := by
    have x1 := Real.mul_self_sqrt ha
    have x2 := Real.mul_self_sqrt (show 0 ≤ A by linarith)
    nlinarith
  have hp : (0.86 : ℝ) ≤ Real.sqrt a + Real.sqrt A := by linarith [Real.sqrt_nonneg a]
  rw [le_div_iff₀ (by norm_num)]
  calc |Real.sqrt a - Real.sqrt A| * 0.86 ≤ |Real.sqrt a - Real.sqrt A| * (Real.sqrt a + Real.sqrt A) :=
        mul_le_mul_of_nonneg_left hp (abs_nonneg _)
    _ = |a - A| := by rw [← e, abs_mul, abs_of_nonneg (show 0 ≤ Real.sqrt a + Real.sqrt A by positivity)]
    _ ≤ ε := h

/-- The root of the Doppler shift. -/
theorem root_close (h : Double fl) {β : ℝ} (h0 : 0 ≤ β) (h1 : β ≤ 1 / 2) :
    ∃ s, fsqrt fl (fl (1 - fl (fl β * fl β))) = some s ∧ |s - Real.sqrt (1 - β * β)| ≤ 5 / 2 ^ 53 := by
  obtain ⟨b0, b1, b2⟩ := velocity_close h h0 h1
  generalize fl β = b at *
  have bb : b * b ≤ 1 / 4 := by nlinarith
  have bb0 : 0 ≤ b * b := mul_self_nonneg b
  have bsq : |b * b - β * β| ≤ 1 / 2 ^ 53 := by
    rw [show b * b - β * β = (b - β) * (b + β) by ring, abs_mul, abs_of_nonneg (show 0 ≤ b + β by linarith)]
    calc |b - β| * (b + β) ≤ |b - β| * 1 := mul_le_mul_of_nonneg_left (by linarith) (abs_nonneg _)
      _ ≤ 1 / 2 ^ 53 := by linarith
  obtain ⟨p1, p2⟩ := abs_le.1 bsq
  obtain ⟨q1, q2⟩ := abs_le.1 (err2 h (x := b * b) (by rw [abs_of_nonneg bb0]; linarith))
  generalize fl (b * b) = q at *
  norm_num at p1 p2 q1 q2
  obtain ⟨r1, r2⟩ := abs_le.1 (err2 h (x := 1 - q) (by rw [abs_le]; constructor <;> linarith))
  generalize fl (1 - q) = a at *
  norm_num at r1 r2
  have A0 : 3 / 4 ≤ 1 - β * β := by nlinarith
  have A1 : 1 - β * β ≤ 1 := by nlinarith
  have a0 : 0 ≤ a := by linarith
  have sc := sqrt_close (ε := 3 / 2 ^ 53) a0 A0 (by rw [abs_le]; norm_num; constructor <;> linarith)
  obtain ⟨s1, s2⟩ := abs_le.1 sc
  norm_num at s1 s2
  have S1 : Real.sqrt (1 - β * β) ≤ 1 := Real.sqrt_le_one.2 A1
  obtain ⟨t1, t2⟩ := abs_le.1 (err2 h (x := Real.sqrt a) (by rw [abs_of_nonneg (Real.sqrt_nonneg _)]; linarith))
  norm_num at t1 t2
  refine ⟨fl (Real.sqrt a), by rw [fsqrt, if_neg (by linarith)], ?_⟩
  rw [abs_le]
  norm_num
  constructor <;> linarith

/-- The divisor of the Doppler shift. -/
theorem divisor_close (h : Double fl) {β c k : ℝ} (h0 : 0 ≤ β) (h1 : β ≤ 1 / 2) (hk : |k| ≤ 1) (hkc : |k - c| ≤ 1 / 2 ^ 50) :
    |fl (1 - fl (fl β * k)) - (1 - β * c)| ≤ 8 / 2 ^ 53 := by
  obtain ⟨b0, b1, b2⟩ := velocity_close h h0 h1
  generalize fl β = b at *
  have x1 : |(b - β) * k| ≤ 1 / 2 ^ 53 := by
    rw [abs_mul]
    calc |b - β| * |k| ≤ |b - β| * 1 := mul_le_mul_of_nonneg_left hk (abs_nonneg _)
      _ ≤ 1 / 2 ^ 53 := by linarith
  have x2 : |β * (k - c)| ≤ 1 / 2 * (1 / 2 ^ 50) := by
    rw [abs_mul, abs_of_nonneg h0]
    exact mul_le_mul h1 hkc (abs_nonneg _) (by norm_num)
  have x3 : |b * k| ≤ 1 / 2 * 1 := by
    rw [abs_mul, abs_of_nonneg b0]
    exact mul_le_mul b1 hk (abs_nonneg _) (by norm_num)
  have e : b * k - β * c = (b - β) * k + β * (k - c) := by ring
  generalize (b - β) * k = u at *
  generalize β * (k - c) = v at *
  generalize b * k = w at *
  generalize β * c = z at *
  obtain ⟨u1, u2⟩ := abs_le.1 x1
  obtain ⟨v1, v2⟩ := abs_le.1 x2
  obtain ⟨w1, w2⟩ := abs_le.1 x3
  obtain ⟨y1, y2⟩ := abs_le.1 (err2 h (x := w) (by linarith))
  generalize fl w = y at *
  norm_num at u1 u2 v1 v2 w1 w2 y1 y2
  obtain ⟨d1, d2⟩ := abs_le.1 (err2 h (x := 1 - y) (by rw [abs_le]; constructor <;> linarith))
  generalize fl (1 - y) = d at *
  norm_num at d1 d2
  rw [abs_le]
  norm_num
  constructor <;> linarith

/-- The quotient of the Doppler shift, from its parts. -/
theorem quotient_close (h : Double fl) {eg s S d D : ℝ} (he : (2 : ℝ) ^ (-300 : Int) ≤ eg) (hs : |s - S| ≤ 5 / 2 ^ 53)
    (hd : |d - D| ≤ 8 / 2 ^ 53) (S0 : 0.86 ≤ S) (S1 : S ≤ 1) (D0 : 1 / 2 ≤ D) (D1 : D ≤ 3 / 2) :
    0 < d ∧ |fl (fl (eg * s) / d) - eg * S / D| ≤ eg * S / D / 2 ^ 46 := by
  have eg0 : 0 < eg := lt_of_lt_of_le (by positivity) he
  have s1 := abs_le.1 hs
  have d1 := abs_le.1 hd
  norm_num at s1 d1 S0
  have d00 : 0 < d := by linarith [d1.1]
  have s00 : 0 < s := by linarith [s1.1]
  refine ⟨d00, ?_⟩
  have big1 : (2 : ℝ) ^ (-301 : Int) ≤ eg * s := by
    have : (2 : ℝ) ^ (-301 : Int) = 2 ^ (-300 : Int) * (1 / 2) := by
      rw [show (-301 : Int) = -300 + (-1) by norm_num, zpow_add₀ (by norm_num)]; norm_num
    rw [this]
    exact mul_le_mul he (by linarith [s1.1]) (by norm_num) eg0.le
  have low : (2 : ℝ) ^ (-400 : Int) ≤ 2 ^ (-302 : Int) := zpow_le_zpow_right₀ (by norm_num) (by norm_num)
  have low1 : (2 : ℝ) ^ (-302 : Int) ≤ 2 ^ (-301 : Int) := zpow_le_zpow_right₀ (by norm_num) (by norm_num)
  have n1 := rel53 h (low.trans (low1.trans big1))
  have n0 : (2 : ℝ) ^ (-301 : Int) ≤ fl (eg * s) := h.ge_of (isFloat_zpow (by omega) (by omega)) big1
  generalize fl (eg * s) = n at *
  have big2 : (2 : ℝ) ^ (-302 : Int) ≤ n / d := by
    rw [le_div_iff₀ d00]
    have e2 : (2 : ℝ) ^ (-301 : Int) = 2 ^ (-302 : Int) * 2 := by
      rw [show (-301 : Int) = -302 + 1 by norm_num, zpow_add₀ (by norm_num)]; norm_num
    calc (2 : ℝ) ^ (-302 : Int) * d ≤ 2 ^ (-302 : Int) * 2 := mul_le_mul_of_nonneg_left (by linarith [d1.2]) (by positivity)
      _ = 2 ^ (-301 : Int) := e2.symm
      _ ≤ n := n0
  have r2 := rel53 h (low.trans big2)
  have X0 : 0 < eg * S / D := div_pos (mul_pos eg0 (by linarith)) (by linarith)
  have t1 : |n / d - eg * s / d| ≤ eg * s / d / 2 ^ 53 := by
    rw [← sub_div, abs_div, abs_of_pos d00, div_right_comm]
    exact div_le_div_of_nonneg_right n1 d00.le
  have t2 : |eg * s / d - eg * S / D| ≤ eg * S / D * (64 / 2 ^ 53) := by
    have e : eg * s / d - eg * S / D = eg * S / D * ((s * (D - d) + d * (s - S)) / (d * S)) := by
      have hS : S ≠ 0 := by linarith
      have hD : D ≠ 0 := by linarith
      have hd : d ≠ 0 := d00.ne'
      field_simp
      ring
    rw [e, abs_mul, abs_of_pos X0]
    refine mul_le_mul_of_nonneg_left ?_ X0.le
    have dS : 0 < d * S := mul_pos d00 (by linarith)
    rw [abs_div, abs_of_pos dS, div_le_iff₀ dS]
    have y1 : |s * (D - d)| ≤ 2 * (8 / 2 ^ 53) := by
      rw [abs_mul, abs_of_pos s00, abs_sub_comm]
      exact mul_le_mul (by linarith [s1.2]) hd (abs_nonneg _) (by norm_num)
    have y2 : |d * (s - S)| ≤ 2 * (5 / 2 ^ 53) := by
      rw [abs_mul, abs_of_pos d00]
      exact mul_le_mul (by linarith [d1.2]) hs (abs_nonneg _) (by norm_num)
    have y3 : 0.49 * 0.86 ≤ d * S := mul_le_mul (by norm_num; linarith [d1.1]) (by norm_num; linarith) (by norm_num) d00.le
    refine (abs_add_le _ _).trans ?_
    refine (add_le_add y1 y2).trans (le_trans ?_ (mul_le_mul_of_nonneg_left y3 (by norm_num)))
    norm_num
  generalize eg * s / d = Z at *
  generalize eg * S / D = X at *
  generalize n / d = W at *
  obtain ⟨u1, u2⟩ := abs_le.1 t2
  obtain ⟨v1, v2⟩ := abs_le.1 t1
  obtain ⟨w1, w2⟩ := abs_le.1 r2
  norm_num at u1 u2 v1 v2 w1 w2
  rw [abs_le]
  norm_num
  constructor <;> linarith

/-- **The energy of a photon in the laboratory** is a number, and equals the Doppler-shifted energy up to a relative error of `2^-46`,
for every fragment slower than half the speed of light and every direction. -/
theorem C133_doppler (h : Double fl) {L : Library} (hL : Accurate L) {pf mf eg c : ℝ} (hp : 0 ≤ pf) (hm : 0 < mf) (hpm : pf ≤ mf / 2)
    (he : (2 : ℝ) ^ (-300 : Int) ≤ eg) (hc : |c| ≤ 1) :
    ∃ e, doppler fl L pf mf eg c = some e ∧ |e - eg * shift (pf / mf) c| ≤ eg * shift (pf / mf) c / 2 ^ 46 := by
  have β0 : 0 ≤ pf / mf := div_nonneg hp hm.le
  have β1 : pf / mf ≤ 1 / 2 := by rw [div_le_iff₀ hm]; linarith
  obtain ⟨s, hs, hs'⟩ := root_close h β0 β1
  have hd := divisor_close h β0 β1 (hL.cos_le (L.acos c)) (hL.cos_acos c hc)
  have fdv : fdiv fl pf mf = some (fl (pf / mf)) := by rw [fdiv, if_neg hm.ne']
  unfold doppler shift
  rw [fdv]
  generalize pf / mf = β at *
  obtain ⟨c1, c2⟩ := abs_le.1 hc
  obtain ⟨d0, q⟩ := quotient_close h (S := Real.sqrt (1 - β * β)) (D := 1 - β * c) he hs' hd
    (Real.le_sqrt_of_sq_le (by norm_num; nlinarith)) (Real.sqrt_le_one.2 (by nlinarith)) (by nlinarith) (by nlinarith)
  refine ⟨_, ?_, by rw [← mul_div_assoc]; exact q⟩
  simp only [bind, Option.bind, hs]
  rw [fdiv, if_neg d0.ne']

/-- **The energy of a photon in the laboratory is positive**, and within a factor of two of the energy in the frame of the fragment. -/
theorem C133_positive (h : Double fl) {L : Library} (hL : Accurate L) {pf mf eg c : ℝ} (hp : 0 ≤ pf) (hm : 0 < mf) (hpm : pf ≤ mf / 2)
    (he : (2 : ℝ) ^ (-300 : Int) ≤ eg) (hc : |c| ≤ 1) : ∃ e, doppler fl L pf mf eg c = some e ∧ eg / 2 ≤ e ∧ e ≤ 2 * eg := by
  have eg0 : 0 < eg := lt_of_lt_of_le (by positivity) he
  obtain ⟨e, h1, h2⟩ := C133_doppler h hL hp hm hpm he hc
  obtain ⟨a, b⟩ := shift_range (div_nonneg hp hm.le) (by rw [div_le_iff₀ hm]; linarith) hc
  have a' := mul_le_mul_of_nonneg_left a eg0.le
  have b' := mul_le_mul_of_nonneg_left b eg0.le
  rw [abs_le] at h2
  norm_num at h2 a' b'
  exact ⟨e, h1, by linarith [h2.1], by linarith [h2.2]⟩

/-- A vector along a direction has a component that is not tiny. -/
theorem along_big (h : Double fl) {L : Library} (hL : Accurate L) {e c phi : ℝ} (he : (2 : ℝ) ^ (-301 : Int) ≤ e) (hc : |c| ≤ 1) :
    (2 : ℝ) ^ (-400 : Int) ≤ |(along fl L e c phi).1| ∨ (2 : ℝ) ^ (-400 : Int) ≤ |(along fl L e c phi).2.1| ∨
      (2 : ℝ) ^ (-400 : Int) ≤ |(along fl L e c phi).2.2| := by
  -- a product of a number of at least `2^k` with one of at least 1/4
  have step : ∀ (x y : ℝ) (k : Int), -900 ≤ k → (2 : ℝ) ^ k ≤ |x| → 1 / 4 ≤ |y| → (2 : ℝ) ^ (k - 2) ≤ |fl (x * y)| := by
    intro x y k hk hx hy
    have e4 : (2 : ℝ) ^ (k - 2) = 2 ^ k * (1 / 4) := by rw [zpow_sub₀ (by norm_num)]; norm_num; ring
    have hxy : (2 : ℝ) ^ (k - 2) ≤ |x * y| := by
      rw [abs_mul, e4]
      exact mul_le_mul hx hy (by norm_num) (abs_nonneg _)
    have fz := isFloat_zpow (p := 53) (emin := -1074) (e := k - 2) (by omega) (by omega)
    rcases le_total 0 (x * y) with hs | hs
    · rw [abs_of_nonneg hs] at hxy
      exact (h.ge_of fz hxy).trans (le_abs_self _)
    · rw [abs_of_nonpos hs] at hxy
      have := h.le_of fz.neg (show x * y ≤ -2 ^ (k - 2) by linarith)
      rw [abs_of_nonpos (this.trans (by simp; positivity))]
      linarith
  have e0 : 0 < e := lt_of_lt_of_le (by positivity) he
  have he' : (2 : ℝ) ^ (-301 : Int) ≤ |e| := by rwa [abs_of_pos e0]
  have down : ∀ k : Int, -400 ≤ k → (2 : ℝ) ^ (-400 : Int) ≤ 2 ^ k := fun k hk => zpow_le_zpow_right₀ (by norm_num) hk
  have quarter : ∀ y : ℝ, 1 / 16 ≤ y * y → 1 / 4 ≤ |y| := by
    intro y hy
    by_contra hlt
    have := not_le.1 hlt
    have : |y| * |y| < 1 / 16 := by nlinarith [abs_nonneg y]
    rw [abs_mul_abs_self] at this
    linarith
  rcases le_total (1 / 16) (c * c) with h1 | h1
  · left
    exact (down (-301 - 2) (by norm_num)).trans (step e c (-301) (by norm_num) he' (quarter c h1))
  · right
    have s1 := abs_le.1 (hL.sin_acos c hc)
    norm_num at s1
    have s2 := step e (L.sin (L.acos c)) (-301) (by norm_num) he' (quarter _ (by linarith [s1.1]))
    have p := abs_le.1 (hL.circle phi)
    norm_num at p
    rcases le_total (1 / 16) (L.cos phi * L.cos phi) with h2 | h2
    · left
      exact (down (-301 - 2 - 2) (by norm_num)).trans (step _ (L.cos phi) (-301 - 2) (by norm_num) s2 (quarter _ h2))
    · right
      exact (down (-301 - 2 - 2) (by norm_num)).trans (step _ (L.sin phi) (-301 - 2) (by norm_num) s2 (quarter _ (by linarith [p.1])))

/-- **Every photon has an energy and directions**: for all random numbers the boost gives a positive energy, and the six direction cosines
computed from the stored vectors (specmc.cpp:996-1013) are numbers between -1 and 1 with squares adding up to one. -/
theorem C133_photon (h : Double fl) {L : Library} (hL : Accurate L) (twopi : ℝ) {pf mf eg r1 r2 : ℝ} (hp : 0 ≤ pf) (hm : 0 < mf)
    (hpm : pf ≤ mf / 2) (he : (2 : ℝ) ^ (-300 : Int) ≤ eg) (hr : IsDouble r2) (h0 : 0 ≤ r2) (h1 : r2 < 1) :
    ∃ p, photonBoost fl L twopi pf mf eg r1 r2 = some p ∧ 0 < p.energy ∧
      (∃ u v w, dircos fl p.cm.1 p.cm.2.1 p.cm.2.2 = some (u, v, w) ∧ |u| ≤ 1 ∧ |v| ≤ 1 ∧ |w| ≤ 1 ∧
        |u * u + v * v + w * w - 1| ≤ 8 / 2 ^ 53) ∧
      (∃ u v w, dircos fl p.lab.1 p.lab.2.1 p.lab.2.2 = some (u, v, w) ∧ |u| ≤ 1 ∧ |v| ≤ 1 ∧ |w| ≤ 1 ∧
        |u * u + v * v + w * w - 1| ≤ 8 / 2 ^ 53) := by
  have hi := C124_isotropic h hr h0 h1
  have hc : |isoCos fl r2| ≤ 1 := abs_le.2 ⟨hi.1, hi.2.le⟩
  obtain ⟨e, e1, e2, e3⟩ := C133_positive h hL hp hm hpm he hc
  have eg0 : 0 < eg := lt_of_lt_of_le (by positivity) he
  have half : (2 : ℝ) ^ (-301 : Int) = 2 ^ (-300 : Int) * (1 / 2) := by
    rw [show (-301 : Int) = -300 + (-1) by norm_num, zpow_add₀ (by norm_num)]; norm_num
  have p300 : (0 : ℝ) < 2 ^ (-300 : Int) := by positivity
  have both : ∀ x, (2 : ℝ) ^ (-301 : Int) ≤ x → ∃ u v w,
      dircos fl (along fl L x (isoCos fl r2) (fl (twopi * r1))).1 (along fl L x (isoCos fl r2) (fl (twopi * r1))).2.1
        (along fl L x (isoCos fl r2) (fl (twopi * r1))).2.2 = some (u, v, w) ∧ |u| ≤ 1 ∧ |v| ≤ 1 ∧ |w| ≤ 1 ∧
        |u * u + v * v + w * w - 1| ≤ 8 / 2 ^ 53 := by
    intro x hx
    have big := along_big h hL (phi := fl (twopi * r1)) hx hc
    obtain ⟨u, v, w, q, q1, q2, q3⟩ := C123_range h (h.float _) (h.float _) (h.float _) big
    obtain ⟨u', v', w', q', q4⟩ := C123_norm h (h.float _) (h.float _) (h.float _) big
    rw [q] at q'
    simp only [Option.some.injEq, Prod.mk.injEq] at q'
    obtain ⟨rfl, rfl, rfl⟩ := q'
    exact ⟨u, v, w, q, q1, q2, q3, q4⟩
  refine ⟨⟨e, along fl L eg (isoCos fl r2) (fl (twopi * r1)), along fl L e (isoCos fl r2) (fl (twopi * r1))⟩, ?_, ?_, ?_, ?_⟩
  · unfold photonBoost
    simp only [e1, bind, pure, Option.bind]
  · show 0 < e
    linarith
  · exact both eg (by rw [half]; linarith)
  · exact both e (by rw [half]; linarith)

/-- Error of a rounding of a number of the size of `e`. -/
theorem err_size (h : Double fl) {x e : ℝ} (he : (2 : ℝ) ^ (-301 : Int) ≤ e) (hx : |x| ≤ 1.5 * e) : |fl x - x| ≤ e / 2 ^ 52 := by
  have a := h.any (x := x) (by omega)
  have t : (2 : ℝ) ^ (-1074 : Int) / 2 ≤ e / 2 ^ 60 := by
    have e1 : (2 : ℝ) ^ (-1074 : Int) / 2 ≤ 2 ^ (-301 : Int) / 2 ^ 60 := by
      rw [show (-1074 : Int) = -301 + (-60) + (-713) by norm_num, zpow_add₀ (by norm_num), zpow_add₀ (by norm_num)]
      have p : (0 : ℝ) < 2 ^ (-301 : Int) := by positivity
      have q : (2 : ℝ) ^ (-713 : Int) ≤ 1 := zpow_le_one_of_nonpos₀ (by norm_num) (by norm_num)
      have r : (0 : ℝ) < 2 ^ (-713 : Int) := by positivity
      have s : (2 : ℝ) ^ (-60 : Int) = 1 / 2 ^ 60 := by norm_num
      rw [s]
      generalize (2 : ℝ) ^ (-301 : Int) = u at *
      generalize (2 : ℝ) ^ (-713 : Int) = v at *
      norm_num
      nlinarith [mul_le_mul_of_nonneg_left q p.le]
    refine e1.trans ?_
    gcongr
  have b : |x| / 2 ^ 53 ≤ 1.5 * e / 2 ^ 53 := by gcongr
  have e0 : 0 < e := lt_of_lt_of_le (by positivity) he
  clear he
  generalize (2 : ℝ) ^ (-1074 : Int) / 2 = w at *
  norm_num at t b ⊢ a
  linarith

/-- Sizes from the Pythagorean identity. -/
theorem size_of_sq {s c : ℝ} (h : |s * s + c * c - 1| ≤ 1 / 2 ^ 50) : |s| ≤ 1.01 := by
  have := (abs_le.1 h).2
  norm_num at this
  rw [abs_le]
  constructor <;> norm_num <;> nlinarith [mul_self_nonneg c]

/-- A vector of length `e` built from a cosine, a sine and an azimuth that are accurate to `2^-50`. -/
theorem vector_core (h : Double fl) {e c s sp cp : ℝ} (he : (2 : ℝ) ^ (-301 : Int) ≤ e) (hc : |c| ≤ 1) (hs : |s * s + c * c - 1| ≤ 1 / 2 ^ 50)
    (hk : |sp * sp + cp * cp - 1| ≤ 1 / 2 ^ 50) (q1 : |cp| ≤ 1) :
    |fl (e * c) - e * c| ≤ e / 2 ^ 52 ∧ |fl (fl (e * s) * cp) * sp - fl (fl (e * s) * sp) * cp| ≤ e / 2 ^ 49 ∧
      |fl (e * c) * fl (e * c) + fl (fl (e * s) * cp) * fl (fl (e * s) * cp) + fl (fl (e * s) * sp) * fl (fl (e * s) * sp) - e * e| ≤
        e * e / 2 ^ 47 := by
  have e0 : 0 < e := lt_of_lt_of_le (by positivity) he
  have s1 := size_of_sq hs
  have p1 := size_of_sq hk
  have ab : ∀ a b : ℝ, |a| ≤ e * 1.02 → |b| ≤ 1.01 → |a * b| ≤ 1.5 * e := by
    intro a b ha hb
    rw [abs_mul]
    calc |a| * |b| ≤ e * 1.02 * 1.01 := mul_le_mul ha hb (abs_nonneg _) (by norm_num; linarith)
      _ ≤ 1.5 * e := by norm_num; linarith
  have hx := err_size h he (x := e * c) (ab e c (by rw [abs_of_pos e0]; norm_num; linarith) (hc.trans (by norm_num)))
  have ht := err_size h he (x := e * s) (ab e s (by rw [abs_of_pos e0]; norm_num; linarith) s1)
  have ht1 : |fl (e * s)| ≤ e * 1.02 := by
    have a := abs_mul e s
    rw [abs_of_pos e0] at a
    have b : e * |s| ≤ e * 1.01 := by gcongr
    have c := abs_sub_abs_le_abs_sub (fl (e * s)) (e * s)
    norm_num at ht b ⊢
    linarith
  have hy := err_size h he (x := fl (e * s) * cp) (ab _ _ ht1 (q1.trans (by norm_num)))
  have hz := err_size h he (x := fl (e * s) * sp) (ab _ _ ht1 p1)
  generalize fl (e * c) = x at *
  generalize fl (fl (e * s) * cp) = y at *
  generalize fl (fl (e * s) * sp) = z at *
  generalize fl (e * s) = t at *
  -- in units of the energy
  obtain ⟨X, rfl⟩ : ∃ X, x = e * X := ⟨x / e, by field_simp⟩
  obtain ⟨Y, rfl⟩ : ∃ Y, y = e * Y := ⟨y / e, by field_simp⟩
  obtain ⟨Z, rfl⟩ : ∃ Z, z = e * Z := ⟨z / e, by field_simp⟩
  obtain ⟨T, rfl⟩ : ∃ T, t = e * T := ⟨t / e, by field_simp⟩
  have unit : ∀ u k : ℝ, |e * u| ≤ e * k ↔ |u| ≤ k := by
    intro u k
    rw [abs_mul, abs_of_pos e0]
    exact mul_le_mul_iff_right₀ e0
  have hX : |X - c| ≤ 1 / 2 ^ 52 := (unit _ _).1 (by rw [mul_sub, mul_one_div]; exact hx)
  have hT : |T - s| ≤ 1 / 2 ^ 52 := (unit _ _).1 (by rw [mul_sub, mul_one_div]; exact ht)
  have hY : |Y - T * cp| ≤ 1 / 2 ^ 52 := (unit _ _).1 (by rw [mul_sub, mul_one_div, ← mul_assoc]; exact hy)
  have hZ : |Z - T * sp| ≤ 1 / 2 ^ 52 := (unit _ _).1 (by rw [mul_sub, mul_one_div, ← mul_assoc]; exact hz)
  have mulb : ∀ a b A B : ℝ, |a| ≤ A → |b| ≤ B → 0 ≤ A → |a * b| ≤ A * B := by
    intro a b A B ha hb hA
    rw [abs_mul]
    exact mul_le_mul ha hb (abs_nonneg _) hA
  have hT1 : |T| ≤ 1.02 := by
    have := abs_sub_abs_le_abs_sub T s
    norm_num at hT s1 ⊢
    linarith
  refine ⟨hx, ?_, ?_⟩
  · rw [show e * Y * sp - e * Z * cp = e * ((Y - T * cp) * sp - (Z - T * sp) * cp) by ring, show e / 2 ^ 49 = e * (1 / 2 ^ 49) by ring, unit]
    have a := mulb _ _ _ _ hY p1 (by norm_num)
    have b := mulb _ _ _ _ hZ q1 (by norm_num)
    generalize (Y - T * cp) * sp = u1 at *
    generalize (Z - T * sp) * cp = u2 at *
    obtain ⟨a1, a2⟩ := abs_le.1 a
    obtain ⟨b1, b2⟩ := abs_le.1 b
    norm_num at a1 a2 b1 b2
    rw [abs_le]
    norm_num
    clear he
    constructor <;> linarith
  · rw [show e * X * (e * X) + e * Y * (e * Y) + e * Z * (e * Z) - e * e = e * (e * (X * X + Y * Y + Z * Z - 1)) by ring,
      show e * e / 2 ^ 47 = e * (e * (1 / 2 ^ 47)) by ring, unit, unit]
    have sq : ∀ a b m : ℝ, |a - b| ≤ 1 / 2 ^ 52 → |b| ≤ 1.05 → |a * a - b * b| ≤ 2.2 / 2 ^ 52 := by
      intro a b m h1 h2
      have h3 : |a + b| ≤ 2.2 := by
        obtain ⟨a1, a2⟩ := abs_le.1 h1
        obtain ⟨b1, b2⟩ := abs_le.1 h2
        norm_num at a1 a2 b1 b2
        rw [abs_le]
        norm_num
        clear he
        constructor <;> linarith
      rw [show a * a - b * b = (a - b) * (a + b) by ring]
      refine (mulb _ _ _ _ h1 h3 (by norm_num)).trans ?_
      norm_num
    have b1 : |T * cp| ≤ 1.05 := (mulb _ _ _ _ hT1 q1 (by norm_num)).trans (by norm_num)
    have b2 : |T * sp| ≤ 1.05 := (mulb _ _ _ _ hT1 p1 (by norm_num)).trans (by norm_num)
    have c1 := sq X c 0 hX (hc.trans (by norm_num))
    have c2 := sq Y _ 0 hY b1
    have c3 := sq Z _ 0 hZ b2
    have c4 := sq T s 0 hT (s1.trans (by norm_num))
    have c5 := mulb (T * T) (sp * sp + cp * cp - 1) (1.02 * 1.02) _ (mulb _ _ _ _ hT1 hT1 (by norm_num)) hk (by norm_num)
    rw [show X * X + Y * Y + Z * Z - 1 = (X * X - c * c) + (Y * Y - T * cp * (T * cp)) + (Z * Z - T * sp * (T * sp)) + (T * T - s * s)
      + T * T * (sp * sp + cp * cp - 1) + (s * s + c * c - 1) by ring]
    rw [abs_le] at c1 c2 c3 c4 c5 hs
    rw [abs_le]
    obtain ⟨c1, d1⟩ := c1
    obtain ⟨c2, d2⟩ := c2
    obtain ⟨c3, d3⟩ := c3
    obtain ⟨c4, d4⟩ := c4
    obtain ⟨c5, d5⟩ := c5
    obtain ⟨c6, d6⟩ := hs
    generalize X * X - c * c = u1 at *
    generalize Y * Y - T * cp * (T * cp) = u2 at *
    generalize Z * Z - T * sp * (T * sp) = u3 at *
    generalize T * T - s * s = u4 at *
    generalize T * T * (sp * sp + cp * cp - 1) = u5 at *
    generalize s * s + c * c - 1 = u6 at *
    norm_num at c1 c2 c3 c4 c5 c6 d1 d2 d3 d4 d5 d6
    norm_num
    clear he
    constructor <;> linarith

/-- **The vector stored for a photon** has the energy as its length and points along the drawn direction: its first component is the
energy times the drawn cosine, and the other two are in the direction of the azimuth. -/
theorem C133_vector (h : Double fl) {L : Library} (hL : Accurate L) {e c phi : ℝ} (he : (2 : ℝ) ^ (-301 : Int) ≤ e) (hc : |c| ≤ 1) :
    let v := along fl L e c phi
    |v.1 - e * c| ≤ e / 2 ^ 52 ∧ |v.2.1 * L.sin phi - v.2.2 * L.cos phi| ≤ e / 2 ^ 49 ∧
      |v.1 * v.1 + v.2.1 * v.2.1 + v.2.2 * v.2.2 - e * e| ≤ e * e / 2 ^ 47 := by
  exact vector_core h he hc (hL.sin_acos c hc) (hL.circle phi) (hL.cos_le phi)

/-- **What is recorded for a photon**: with the cosine of the drawn direction within `2^-53` of `2 r2 - 1`, the recorded energy is the
Doppler shifted one, and the two stored vectors have the energy in the frame of the fragment and the recorded energy as their lengths,
both along the same direction, the azimuth being the rounded `twopi r1`. -/
theorem C133_recorded (h : Double fl) {L : Library} (hL : Accurate L) (twopi : ℝ) {pf mf eg r1 r2 : ℝ} (hp : 0 ≤ pf) (hm : 0 < mf)
    (hpm : pf ≤ mf / 2) (he : (2 : ℝ) ^ (-300 : Int) ≤ eg) (hr : IsDouble r2) (h0 : 0 ≤ r2) (h1 : r2 < 1) :
    ∃ p c phi, photonBoost fl L twopi pf mf eg r1 r2 = some p ∧ |c - (2 * r2 - 1)| ≤ 1 / 2 ^ 53 ∧ phi = fl (twopi * r1) ∧
      |p.energy - eg * shift (pf / mf) c| ≤ eg * shift (pf / mf) c / 2 ^ 46 ∧
      ∀ v e, (v, e) = (p.cm, eg) ∨ (v, e) = (p.lab, p.energy) →
        |v.1 - e * c| ≤ e / 2 ^ 52 ∧ |v.2.1 * L.sin phi - v.2.2 * L.cos phi| ≤ e / 2 ^ 49 ∧
        |v.1 * v.1 + v.2.1 * v.2.1 + v.2.2 * v.2.2 - e * e| ≤ e * e / 2 ^ 47 := by
  have hi := C124_isotropic h hr h0 h1
  have hc : |isoCos fl r2| ≤ 1 := abs_le.2 ⟨hi.1, hi.2.le⟩
  obtain ⟨e, e1, e2, e3⟩ := C133_positive h hL hp hm hpm he hc
  obtain ⟨e', f1, f2⟩ := C133_doppler h hL hp hm hpm he hc
  rw [e1] at f1
  obtain rfl : e = e' := Option.some.inj f1
  have half : (2 : ℝ) ^ (-301 : Int) = 2 ^ (-300 : Int) * (1 / 2) := by
    rw [show (-301 : Int) = -300 + (-1) by norm_num, zpow_add₀ (by norm_num)]; norm_num
  have p300 : (0 : ℝ) < 2 ^ (-300 : Int) := by positivity
  refine ⟨⟨e, along fl L eg (isoCos fl r2) (fl (twopi * r1)), along fl L e (isoCos fl r2) (fl (twopi * r1))⟩, isoCos fl r2,
    fl (twopi * r1), ?_, ?_, rfl, f2, ?_⟩
  · unfold photonBoost
    simp only [e1, bind, pure, Option.bind]
  · unfold isoCos
    rw [h.fix (double_twice hr)]
    exact err2 h (by rw [abs_le]; constructor <;> linarith)
  · rintro v x (hv | hv) <;> simp only [Prod.mk.injEq] at hv <;> obtain ⟨rfl, rfl⟩ := hv
    · exact C133_vector h hL (by rw [half]; linarith) hc
    · exact C133_vector h hL (by rw [half]; linarith) hc

/-- The exact functions are accurate. -/
theorem accurate_exact : Accurate ⟨Real.sin, Real.cos, Real.arccos⟩ where
  cos_acos c hc := by
    show |Real.cos (Real.arccos c) - c| ≤ _
    rw [Real.cos_arccos (abs_le.1 hc).1 (abs_le.1 hc).2]; norm_num
  cos_le x := Real.abs_cos_le_one x
  sin_acos c hc := by
    have := Real.sin_sq_add_cos_sq (Real.arccos c)
    rw [Real.cos_arccos (abs_le.1 hc).1 (abs_le.1 hc).2] at this
    have e : Real.sin (Real.arccos c) * Real.sin (Real.arccos c) + c * c - 1 = 0 := by nlinarith
    simp only [e]; norm_num
  circle x := by
    have := Real.sin_sq_add_cos_sq x
    have e : Real.sin x * Real.sin x + Real.cos x * Real.cos x - 1 = 0 := by nlinarith
    simp only [e]; norm_num

/-- A photon of 1 MeV from a fragment at four hundredths of the speed of light. -/
example (h : Double fl) (twopi : ℝ) : ∃ p, photonBoost fl ⟨Real.sin, Real.cos, Real.arccos⟩ twopi 4 100 1 (1 / 2) (1 / 2) = some p ∧ 0 < p.energy := by
  have hr : IsDouble (1 / 2 : ℝ) := by
    have := isFloat_zpow (p := 53) (emin := -1074) (e := -1) (by omega) (by omega)
    norm_num at this ⊢
    exact this
  obtain ⟨p, a, b, _⟩ := C133_photon h accurate_exact twopi (pf := 4) (mf := 100) (eg := 1) (r1 := 1 / 2) (r2 := 1 / 2) (by norm_num)
    (by norm_num) (by norm_num) (zpow_le_one_of_nonpos₀ (by norm_num) (by norm_num)) hr (by norm_num) (by norm_num)
  exact ⟨p, a, b⟩

/-- The number 1/2 gives a direction at right angles to the axis: hardly any momentum along it. -/
example (h : Double fl) : ∃ p, photonBoost fl ⟨Real.sin, Real.cos, Real.arccos⟩ 6 4 100 1 (1 / 4) (1 / 2) = some p ∧ |p.cm.1| ≤ 1 / 2 ^ 51 := by
  have hr : IsDouble (1 / 2 : ℝ) := by
    have := isFloat_zpow (p := 53) (emin := -1074) (e := -1) (by omega) (by omega)
    norm_num at this ⊢
    exact this
  obtain ⟨p, c, phi, a, b, _, _, d⟩ := C133_recorded h accurate_exact 6 (pf := 4) (mf := 100) (eg := 1) (r1 := 1 / 4) (r2 := 1 / 2) (by norm_num)
    (by norm_num) (by norm_num) (zpow_le_one_of_nonpos₀ (by norm_num) (by norm_num)) hr (by norm_num) (by norm_num)
  refine ⟨p, a, ?_⟩
  obtain ⟨x1, x2⟩ := abs_le.1 (d _ _ (Or.inl rfl)).1
  obtain ⟨y1, y2⟩ := abs_le.1 b
  norm_num at x1 x2 y1 y2
  rw [abs_le]
  norm_num
  constructor <;> linarith

/-- At right angles to the motion the photon is redshifted. -/
example (h : Double fl) : ∃ e, doppler fl ⟨Real.sin, Real.cos, Real.arccos⟩ 3 10 1 0 = some e ∧ e < 1 := by
  obtain ⟨e, h1, h2⟩ := C133_doppler h accurate_exact (pf := 3) (mf := 10) (eg := 1) (c := 0) (by norm_num) (by norm_num) (by norm_num)
    (zpow_le_one_of_nonpos₀ (by norm_num) (by norm_num)) (by norm_num)
  refine ⟨e, h1, ?_⟩
  have hs : shift (3 / 10) 0 ≤ 0.96 := by
    unfold shift
    rw [mul_zero, sub_zero, _root_.div_one]
    exact Real.sqrt_le_iff.2 ⟨by norm_num, by norm_num⟩
  have h3 := (abs_le.1 h2).2
  norm_num at h3 hs
  linarith

end CGMF.Props

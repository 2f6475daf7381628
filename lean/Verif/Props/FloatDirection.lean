import Verif.Props.Float
import Verif.Props.Angular

/-!
# C124: directions drawn in double arithmetic
-/

namespace CGMF.Props

open CGMF.Fp

variable {fl : ℝ → ℝ}

/-- A `double` below one is at most one minus a unit in the last place. -/
theorem below_one {r : ℝ} (hr : IsDouble r) (h1 : r < 1) : r ≤ 1 - 1 / 2 ^ 53 := by
  rcases le_or_gt (1 / 2) r with hh | hh
  · obtain ⟨k, hk⟩ := hr.multiple (e := -53) (by
      rw [abs_of_nonneg (by linarith)]; norm_num; linarith)
    have e : (2 : ℝ) ^ (-53 : Int) = 1 / 2 ^ 53 := by norm_num
    rw [e] at hk
    have : (k : ℝ) < 2 ^ 53 := by
      rw [hk] at h1
      norm_num at h1 ⊢
      linarith
    have : k < 2 ^ 53 := by exact_mod_cast this
    have : k ≤ 2 ^ 53 - 1 := by omega
    have : (k : ℝ) ≤ 2 ^ 53 - 1 := by exact_mod_cast this
    rw [hk]
    norm_num at this ⊢
    linarith
  · norm_num
    linarith

theorem double_twice {r : ℝ} (hr : IsDouble r) : IsDouble (2 * r) := by
  obtain ⟨m, e, h1, h2, rfl⟩ := hr
  refine ⟨m, e + 1, h1, by omega, ?_⟩
  rw [zpow_add₀ (by norm_num)]
  ring

/-- **C124.** The cosine of an isotropic direction is a number in `[-1, 1)`. -/
theorem C124_isotropic (h : Double fl) {r : ℝ} (hr : IsDouble r) (h0 : 0 ≤ r) (h1 : r < 1) :
    -1 ≤ isoCos fl r ∧ isoCos fl r < 1 := by
  unfold isoCos
  rw [h.fix (double_twice hr)]
  have hb := below_one hr h1
  constructor
  · exact h.ge_of double_one.neg (by linarith)
  · have : IsDouble (1 - 1 / 2 ^ 52) := by
      refine ⟨2 ^ 52 - 1, -52, by norm_num, by norm_num, ?_⟩
      norm_num
    refine lt_of_le_of_lt (h.le_of this ?_) (by norm_num)
    norm_num at hb ⊢
    linarith

theorem sinOf_some (h : Double fl) {c : ℝ} (hc : |c| ≤ 1) :
    ∃ s, sinOf fl c = some s ∧ s = fl (Real.sqrt (fl (1 - fl (c * c)))) ∧ 0 ≤ s ∧ s ≤ 1 := by
  have hcc : c * c ≤ 1 := by rw [← abs_mul_abs_self]; nlinarith [abs_nonneg c]
  have u1 : fl (c * c) ≤ 1 := h.le_of double_one hcc
  have u0 : 0 ≤ fl (c * c) := h.nonneg (mul_self_nonneg c)
  have w0 : 0 ≤ fl (1 - fl (c * c)) := h.nonneg (by linarith)
  have w1 : fl (1 - fl (c * c)) ≤ 1 := h.le_of double_one (by linarith)
  refine ⟨_, by unfold sinOf fsqrt; rw [if_neg (by linarith)], rfl, h.nonneg (Real.sqrt_nonneg _), h.le_of double_one ?_⟩
  have := Real.sqrt_le_sqrt w1
  rwa [Real.sqrt_one] at this

/-- **C124.** From every cosine in `[-1, 1]` the computed sine is a number in `[0, 1]`, and the squares of the two add up to one
within five units of the last place. -/
theorem C124_sine (h : Double fl) {c : ℝ} (hc : |c| ≤ 1) :
    ∃ s, sinOf fl c = some s ∧ 0 ≤ s ∧ s ≤ 1 ∧ |c * c + s * s - 1| ≤ 5 / 2 ^ 53 := by
  obtain ⟨s, es, hs, s0, s1⟩ := sinOf_some h hc
  refine ⟨s, es, s0, s1, ?_⟩
  set η : ℝ := 2 ^ (-1074 : Int) / 2 with hη
  have hη0 : 0 ≤ η := by rw [hη]; positivity
  have hη1 : η ≤ 1 / 2 ^ 200 := by
    have := eta_le (k := 0) (by norm_num)
    rwa [zpow_zero, one_mul] at this
  have any : ∀ w, |fl w - w| ≤ |w| / 2 ^ 53 + η := fun w => h.any (by norm_num)
  have hcc : c * c ≤ 1 := by rw [← abs_mul_abs_self]; nlinarith [abs_nonneg c]
  have hc0 := mul_self_nonneg c
  have pu := abs_le.1 (any (c * c))
  rw [abs_of_nonneg hc0] at pu
  set u := fl (c * c) with hu
  have u1 : u ≤ 1 := h.le_of double_one hcc
  have u0 : 0 ≤ u := h.nonneg hc0
  have pw := abs_le.1 (any (1 - u))
  rw [abs_of_nonneg (by linarith)] at pw
  set w := fl (1 - u) with hw
  have w0 : 0 ≤ w := h.nonneg (by linarith)
  have w1 : w ≤ 1 := h.le_of double_one (by linarith)
  set t := Real.sqrt w with ht
  have tt : t * t = w := Real.mul_self_sqrt w0
  have t1 : |t| ≤ 1 := by
    have := Real.sqrt_le_sqrt w1
    rw [abs_of_nonneg (Real.sqrt_nonneg _)]
    rwa [Real.sqrt_one] at this
  have ps := abs_le.1 (sq_near t1 hη0 hη1 (any t))
  rw [← hs, tt] at ps
  rw [abs_le]
  norm_num at pu pw ps hη1 ⊢
  constructor
  · linarith [pu.1, pu.2, pw.1, pw.2, ps.1, ps.2]
  · linarith [pu.1, pu.2, pw.1, pw.2, ps.1, ps.2]

/-- **C124.** `boost`: the polar angle of a moving fragment has a cosine in `[-1, 1]` and a sine that is a number. -/
theorem C124_fragment (h : Double fl) {x y z : ℝ} (hx : IsDouble x) (hy : IsDouble y) (hz : IsDouble z)
    (hbig : (2 : ℝ) ^ (-400 : Int) ≤ |x| ∨ (2 : ℝ) ^ (-400 : Int) ≤ |y| ∨ (2 : ℝ) ^ (-400 : Int) ≤ |z|) :
    ∃ c s, fragmentAngle fl x y z = some (c, s) ∧ |c| ≤ 1 ∧ 0 ≤ s ∧ s ≤ 1 := by
  obtain ⟨v, e, -, low, h1, h2, h3⟩ := length_ge h hx hy hz hbig
  have hv : 0 < v := lt_of_lt_of_le (by positivity) low
  obtain ⟨c, ec, -, hc⟩ := div_one h hv h3
  obtain ⟨s, es, -, s0, s1⟩ := sinOf_some h hc
  exact ⟨c, s, by unfold fragmentAngle; rw [e]; simp [ec, es], hc, s0, s1⟩

/-- **C124.** A pre-fission neutron of centre-of-mass energy `e ≥ 0`, emitted isotropically by a nucleus of any momentum, has
velocities that are numbers, whatever the random numbers; its speed in the centre of mass does not exceed the computed speed in
any component. -/
theorem C124_emission (h : Double fl) (sin cos : ℝ → ℝ) (hsin : ∀ x, |sin x| ≤ 1) (hcos : ∀ x, |cos x| ≤ 1) (twopi : ℝ) {mn mc e : ℝ}
    (hmn : 0 < mn) (hmc : 0 < mc) (he : 0 ≤ e) (p : ℝ × ℝ × ℝ) {r1 r2 : ℝ} (hr : IsDouble r2) (h0 : 0 ≤ r2) (h1 : r2 < 1) :
    ∃ V W v, emitVelocity fl sin cos twopi mn mc e p r1 r2 = some (V, W) ∧ v = fl (Real.sqrt (fl (fl (2 * e) / mn))) ∧
      |V.1| ≤ v ∧ |V.2.1| ≤ v ∧ |V.2.2| ≤ v := by
  have hi := C124_isotropic h hr h0 h1
  have hc : |isoCos fl r2| ≤ 1 := abs_le.2 ⟨hi.1, hi.2.le⟩
  obtain ⟨s, es, -, s0, s1⟩ := sinOf_some h hc
  have q0 : 0 ≤ fl (fl (2 * e) / mn) := h.nonneg (div_nonneg (h.nonneg (by linarith)) hmn.le)
  have fd : ∀ a b : ℝ, 0 < b → fdiv fl a b = some (fl (a / b)) := fun a b hb => by rw [fdiv, if_neg hb.ne']
  have eq : fsqrt fl (fl (fl (2 * e) / mn)) = some (fl (Real.sqrt (fl (fl (2 * e) / mn)))) := by rw [fsqrt, if_neg (by linarith)]
  have v0 : 0 ≤ fl (Real.sqrt (fl (fl (2 * e) / mn))) := h.nonneg (Real.sqrt_nonneg _)
  have vf : IsDouble (fl (Real.sqrt (fl (fl (2 * e) / mn)))) := h.float _
  refine ⟨_, _, _, by unfold emitVelocity; simp only [es, eq, fd _ _ hmn, fd _ _ hmc, bind, pure, Option.bind]; rfl, rfl, ?_⟩
  set v := fl (Real.sqrt (fl (fl (2 * e) / mn)))
  have vs : |fl (v * s)| ≤ v := h.abs_le_of vf (by rw [abs_mul, abs_of_nonneg v0, abs_of_nonneg s0]; nlinarith)
  have key : ∀ a b : ℝ, |a| ≤ v → |b| ≤ 1 → |fl (a * b)| ≤ v := fun a b ha hb => h.abs_le_of vf (by
    rw [abs_mul]; nlinarith [abs_nonneg a, abs_nonneg b])
  exact ⟨key _ _ vs (hcos _), key _ _ vs (hsin _), key _ _ (by rw [abs_of_nonneg v0]) hc⟩

/-! ### Cosines drawn from a table -/

/-- Error of an operation whose result is at most eight. -/
theorem err8 (h : Double fl) {w : ℝ} (hw : |w| ≤ 8) : |fl w - w| ≤ 9 / 2 ^ 53 := by
  have := h.any (x := w) (by norm_num)
  have e := eta_le (k := 0) (by norm_num)
  rw [zpow_zero, one_mul] at e
  set η : ℝ := 2 ^ (-1074 : Int) / 2
  norm_num at this e ⊢
  linarith

/-- The computed numerator and denominator of the interpolation. -/
theorem interp_error (h : Double fl) {x1 y1 x2 y2 r : ℝ} (hx1 : |x1| ≤ 1) (hx2 : |x2| ≤ 1) (hy1 : 0 ≤ y1) (hy12 : y1 ≤ y2)
    (hy2 : y2 ≤ 1) (hr0 : 0 ≤ r) (hr1 : r ≤ 1) :
    |fl (fl (fl (fl (x2 - x1) * r) - fl (y1 * x2)) + fl (y2 * x1)) - ((x2 - x1) * r - y1 * x2 + y2 * x1)| ≤ 54 / 2 ^ 53 ∧
      |fl (y2 - y1) - (y2 - y1)| ≤ 9 / 2 ^ 53 := by
  rw [abs_le] at hx1 hx2
  have mul1 : ∀ {a b B : ℝ}, |a| ≤ B → 0 ≤ b → b ≤ 1 → |a * b| ≤ B := fun {a b B} ha h0 h1 => by
    rw [abs_mul, abs_of_nonneg h0]
    nlinarith [abs_nonneg a]
  have e1 := abs_le.1 (err8 h (w := x2 - x1) (by rw [abs_le]; constructor <;> linarith))
  set d := fl (x2 - x1)
  have dB : |d| ≤ 3 := by rw [abs_le]; norm_num at e1 ⊢; constructor <;> linarith [e1.1, e1.2]
  have dr := mul1 dB hr0 hr1
  have e2 := abs_le.1 (err8 h (w := d * r) (by linarith))
  have dr' := abs_le.1 dr
  set m1 := fl (d * r)
  have b2 : |y1 * x2| ≤ 1 := by rw [mul_comm]; exact mul1 (abs_le.2 hx2) hy1 (by linarith)
  have e3 := abs_le.1 (err8 h (w := y1 * x2) (by linarith))
  have b2' := abs_le.1 b2
  set m2 := fl (y1 * x2)
  have b3 : |y2 * x1| ≤ 1 := by rw [mul_comm]; exact mul1 (abs_le.2 hx1) (by linarith) (by linarith)
  have e4 := abs_le.1 (err8 h (w := y2 * x1) (by linarith))
  have b3' := abs_le.1 b3
  set m3 := fl (y2 * x1)
  have e5 := abs_le.1 (err8 h (w := m1 - m2) (by
    norm_num at e2 e3
    rw [abs_le]; constructor <;> linarith [e2.1, e2.2, e3.1, e3.2, dr'.1, dr'.2, b2'.1, b2'.2]))
  set n1 := fl (m1 - m2)
  have e6 := abs_le.1 (err8 h (w := n1 + m3) (by
    norm_num at e2 e3 e4 e5
    rw [abs_le]; constructor <;> linarith [e2.1, e2.2, e3.1, e3.2, dr'.1, dr'.2, b2'.1, b2'.2, e4.1, e4.2, e5.1, e5.2, b3'.1, b3'.2]))
  have e7 := err8 h (w := y2 - y1) (by rw [abs_le]; constructor <;> linarith)
  refine ⟨?_, e7⟩
  have f1 : |(d - (x2 - x1)) * r| ≤ 9 / 2 ^ 53 := mul1 (abs_le.2 e1) hr0 hr1
  have f1' := abs_le.1 f1
  have ex : d * r = (d - (x2 - x1)) * r + (x2 - x1) * r := by ring
  rw [ex] at e2
  rw [abs_le]
  norm_num at e2 e3 e4 e5 e6 f1' ⊢
  constructor
  · linarith [e2.1, e3.2, e4.1, e5.1, e6.1, f1'.1]
  · linarith [e2.2, e3.1, e4.2, e5.2, e6.2, f1'.2]

theorem interp_upper (h : Double fl) {x1 y1 x2 y2 r : ℝ} (hx1 : |x1| ≤ 1) (hx2 : |x2| ≤ 1) (hx : x1 ≤ x2) (hm : x2 ≤ 63 / 64) (hy1 : 0 ≤ y1)
    (hy12 : y1 + 1 / 2 ^ 20 ≤ y2) (hy2 : y2 ≤ 1) (hr0 : 0 ≤ r) (hr : r ≤ y2) :
    fl (fl (fl (fl (x2 - x1) * r) - fl (y1 * x2)) + fl (y2 * x1)) ≤ fl (y2 - y1) := by
  have hg : (0 : ℝ) < 1 / 2 ^ 20 := by positivity
  obtain ⟨e1, e2⟩ := interp_error h hx1 hx2 hy1 (by linarith) hy2 hr0 (by linarith)
  have e1 := abs_le.1 e1
  have e2 := abs_le.1 e2
  have k1 : (x2 - x1) * r ≤ (x2 - x1) * y2 := mul_le_mul_of_nonneg_left hr (by linarith)
  have k2 : x2 * (y2 - y1) ≤ 63 / 64 * (y2 - y1) := mul_le_mul_of_nonneg_right hm (by linarith)
  have k3 : (x2 - x1) * y2 - y1 * x2 + y2 * x1 = x2 * (y2 - y1) := by ring
  norm_num at e1 e2 hy12
  linarith [e1.2, e2.1]

theorem interp_lower (h : Double fl) {x1 y1 x2 y2 r : ℝ} (hx1 : |x1| ≤ 1) (hx2 : |x2| ≤ 1) (hx : x1 ≤ x2) (hm : -(63 / 64) ≤ x1) (hy1 : 0 ≤ y1)
    (hy12 : y1 + 1 / 2 ^ 20 ≤ y2) (hy2 : y2 ≤ 1) (hr : y1 ≤ r) (hr1 : r ≤ 1) :
    -fl (y2 - y1) ≤ fl (fl (fl (fl (x2 - x1) * r) - fl (y1 * x2)) + fl (y2 * x1)) := by
  have hg : (0 : ℝ) < 1 / 2 ^ 20 := by positivity
  obtain ⟨e1, e2⟩ := interp_error h hx1 hx2 hy1 (by linarith) hy2 (by linarith) hr1
  have e1 := abs_le.1 e1
  have e2 := abs_le.1 e2
  have k1 : (x2 - x1) * y1 ≤ (x2 - x1) * r := mul_le_mul_of_nonneg_left hr (by linarith)
  have k2 : -(63 / 64) * (y2 - y1) ≤ x1 * (y2 - y1) := mul_le_mul_of_nonneg_right hm (by linarith)
  have k3 : (x2 - x1) * y1 - y1 * x2 + y2 * x1 = x1 * (y2 - y1) := by ring
  norm_num at e1 e2 hy12
  linarith [e1.1, e2.1]

/-- The first interval: the product is not negative, so that the quotient is not below -1. -/
theorem interp_first (h : Double fl) {x2 y2 r : ℝ} (hx2 : -1 ≤ x2) (hy2 : IsDouble y2) (hr0 : 0 ≤ r) :
    -fl (y2 - 0) ≤ fl (fl (fl (fl (x2 - -1) * r) - fl (0 * x2)) + fl (y2 * -1)) := by
  have z : fl (0 * x2) = 0 := by rw [zero_mul]; exact h.fix isFloat_zero
  rw [z, sub_zero, sub_zero, h.fix hy2, mul_neg, mul_one, h.fix hy2.neg]
  have d0 : 0 ≤ fl (x2 - -1) := h.nonneg (by linarith)
  have m0 : 0 ≤ fl (fl (x2 - -1) * r) := h.nonneg (mul_nonneg d0 hr0)
  have m1 : 0 ≤ fl (fl (fl (x2 - -1) * r)) := h.nonneg m0
  exact h.ge_of hy2.neg (by linarith)

/-- The last interval: all operations but the product are exact, so that the quotient is not above one. -/
theorem interp_last (h : Double fl) {x1 y1 r : ℝ} (dx : IsDouble x1) (dy : IsDouble y1) (hx : 1 / 2 ≤ x1) (hx1 : x1 ≤ 1) (hy : 1 / 2 ≤ y1)
    (hy1 : y1 ≤ 1) (hr1 : r ≤ 1) :
    fl (fl (fl (fl (1 - x1) * r) - fl (y1 * 1)) + fl (1 * x1)) ≤ fl (1 - y1) := by
  obtain ⟨k, hk⟩ := dx.multiple (e := -53) (by rw [abs_of_nonneg (by linarith)]; norm_num; linarith)
  obtain ⟨l, hl⟩ := dy.multiple (e := -53) (by rw [abs_of_nonneg (by linarith)]; norm_num; linarith)
  have e53 : (2 : ℝ) ^ (-53 : Int) = 1 / 2 ^ 53 := by norm_num
  have fit : ∀ m : Int, |(m : ℝ) * 2 ^ (-53 : Int)| ≤ 1 → IsDouble ((m : ℝ) * 2 ^ (-53 : Int)) := by
    intro m hm
    refine isFloat_mul ?_ (by norm_num) (by norm_num)
    rw [abs_mul, abs_of_pos (by positivity : (0 : ℝ) < 2 ^ (-53 : Int)), e53, mul_one_div, div_le_one (by positivity)] at hm
    exact_mod_cast hm
  have f1 : IsDouble (1 - x1) := by
    have e : 1 - x1 = ((2 ^ 53 - k : Int) : ℝ) * 2 ^ (-53 : Int) := by rw [hk, e53]; push_cast; ring
    rw [e]; apply fit; rw [← e, abs_le]; constructor <;> linarith
  have f2 : IsDouble (1 - x1 - y1) := by
    have e : 1 - x1 - y1 = ((2 ^ 53 - k - l : Int) : ℝ) * 2 ^ (-53 : Int) := by rw [hk, hl, e53]; push_cast; ring
    rw [e]; apply fit; rw [← e, abs_le]; constructor <;> linarith
  have f3 : IsDouble (1 - y1) := by
    have e : 1 - y1 = ((2 ^ 53 - l : Int) : ℝ) * 2 ^ (-53 : Int) := by rw [hl, e53]; push_cast; ring
    rw [e]; apply fit; rw [← e, abs_le]; constructor <;> linarith
  rw [mul_one, one_mul, h.fix dx, h.fix dy, h.fix f1, h.fix f3]
  have a1 : fl ((1 - x1) * r) ≤ 1 - x1 := h.le_of f1 (by nlinarith)
  have a2 : fl (fl ((1 - x1) * r) - y1) ≤ 1 - x1 - y1 := h.le_of f2 (by linarith)
  exact h.le_of f3 (by linarith)

/-- What the code needs of a table of cosines and cumulative probabilities with rows `0 .. n`. -/
structure GoodTable (n : Nat) (x y : Nat → ℝ) : Prop where
  rows : 2 ≤ n
  first : x 0 = -1 ∧ y 0 = 0
  last : x n = 1 ∧ y n = 1
  double : ∀ i, i ≤ n → IsDouble (x i) ∧ IsDouble (y i)
  inner : ∀ i, 0 < i → i < n → |x i| ≤ 63 / 64
  grows : ∀ i, i < n → x i ≤ x (i + 1) ∧ y i + 1 / 2 ^ 20 ≤ y (i + 1)
  before : 1 / 2 ≤ x (n - 1) ∧ 1 / 2 ≤ y (n - 1)

/-- **C124.** For every table of doubles that rises from `(-1, 0)` to `(1, 1)` in steps of at least `2^-20` in probability, and
every random number, the interpolated cosine is a number between -1 and 1 (and so, by `C124_sine`, the sine is a number). -/
theorem C124_table (h : Double fl) {n : Nat} {x y : Nat → ℝ} (g : GoodTable n x y) {r : ℝ} (hr0 : 0 ≤ r) (hr1 : r < 1) :
    ∃ c, tableCos fl ((List.range (n + 1)).map fun i => (x i, y i)) r = some c ∧ |c| ≤ 1 := by
  have hn := g.rows
  have hy : ∀ i, i ≤ n → 0 ≤ y i := by
    intro i
    induction i with
    | zero => intro _; rw [g.first.2]
    | succ i ih =>
        intro hi
        have := (g.grows i (by omega)).2
        have := ih (by omega)
        have : (0 : ℝ) < 1 / 2 ^ 20 := by positivity
        linarith
  have hy1 : ∀ k, k ≤ n → y (n - k) ≤ 1 := by
    intro k
    induction k with
    | zero => intro _; rw [Nat.sub_zero, g.last.2]
    | succ k ih =>
        intro hk
        have := (g.grows (n - (k + 1)) (by omega)).2
        rw [show n - (k + 1) + 1 = n - k by omega] at this
        have := ih (by omega)
        have : (0 : ℝ) < 1 / 2 ^ 20 := by positivity
        linarith
  have hy1' : ∀ i, i ≤ n → y i ≤ 1 := fun i hi => by
    have := hy1 (n - i) (by omega)
    rwa [show n - (n - i) = i by omega] at this
  have hx : ∀ i, i ≤ n → |x i| ≤ 1 := by
    intro i hi
    rcases Nat.eq_zero_or_pos i with rfl | h0
    · rw [g.first.1]; simp
    · rcases hi.eq_or_lt with rfl | h1
      · rw [g.last.1]; simp
      · exact (g.inner i h0 h1).trans (by norm_num)
  obtain ⟨i, p, q, h1, h2, h3, h4, h5⟩ := cdfScan_spec r ((List.range n).map fun i => (x (i + 1), y (i + 1))) (x 0, y 0) none
    (by simp; omega) (by simpa [g.first.2] using hr0) (by
      intro z hz
      obtain ⟨m, rfl⟩ : ∃ m, n = m + 1 := ⟨n - 1, by omega⟩
      rw [List.range_succ, List.map_append, ← List.cons_append, List.map_singleton, List.getLast?_concat] at hz
      simp only [Option.mem_def, Option.some.injEq] at hz
      rw [← hz, g.last.2]
      exact hr1)
  have el : ((x 0, y 0) :: (List.range n).map fun i => (x (i + 1), y (i + 1))) = (List.range (n + 1)).map fun i => (x i, y i) := by
    rw [List.range_succ_eq_map]
    simp [Function.comp_def]
  rw [el] at h1 h2 h5
  have hi : i + 1 < n + 1 := by
    have := (List.getElem?_eq_some_iff.1 h2).1
    simpa using this
  simp only [List.getElem?_map, List.getElem?_range (show i < n + 1 by omega), List.getElem?_range hi, Option.map_some, Option.some.injEq] at h1 h2
  subst h1 h2
  have hi : i < n := by omega
  simp only at h3 h4
  unfold tableCos
  rw [h5]
  simp only [interpolate]
  have gr := g.grows i hi
  have hg : (0 : ℝ) < 1 / 2 ^ 20 := by positivity
  have up : fl (fl (fl (fl (x (i + 1) - x i) * r) - fl (y i * x (i + 1))) + fl (y (i + 1) * x i)) ≤ fl (y (i + 1) - y i) := by
    rcases Nat.lt_or_ge (i + 1) n with hl | hl
    · exact interp_upper h (hx _ hi.le) (hx _ hi) gr.1 (abs_le.1 (g.inner _ (by omega) hl)).2 (hy _ hi.le) gr.2 (hy1' _ hi) hr0 h4.le
    · have e : i + 1 = n := by omega
      have e' : i = n - 1 := by omega
      have xi := (abs_le.1 (hx i hi.le)).2
      have yi := hy1' i hi.le
      have := g.before
      rw [← e'] at this
      rw [e, g.last.1, g.last.2]
      exact interp_last h (g.double i hi.le).1 (g.double i hi.le).2 this.1 xi this.2 yi hr1.le
  have low : -fl (y (i + 1) - y i) ≤ fl (fl (fl (fl (x (i + 1) - x i) * r) - fl (y i * x (i + 1))) + fl (y (i + 1) * x i)) := by
    rcases Nat.eq_zero_or_pos i with rfl | h0
    · rw [g.first.1, g.first.2]
      exact interp_first h (abs_le.1 (hx 1 (by omega))).1 (g.double 1 (by omega)).2 hr0
    · exact interp_lower h (hx _ hi.le) (hx _ hi) gr.1 (abs_le.1 (g.inner _ h0 hi)).1 (hy _ hi.le) gr.2 (hy1' _ hi) h3 hr1.le
  have dpos : 0 < fl (y (i + 1) - y i) := by
    have f : IsDouble ((1 : ℝ) / 2 ^ 20) := by
      have := isFloat_zpow (p := 53) (emin := -1074) (e := -20) (by norm_num) (by norm_num)
      have e : (2 : ℝ) ^ (-20 : Int) = 1 / 2 ^ 20 := by norm_num
      rwa [e] at this
    exact lt_of_lt_of_le hg (h.ge_of f (by linarith [gr.2]))
  rw [fdiv, if_neg dpos.ne']
  refine ⟨_, rfl, h.abs_le_of double_one ?_⟩
  rw [abs_div, abs_of_pos dpos, div_le_one dpos, abs_le]
  exact ⟨low, up⟩

theorem tabCos_eq (h : Double fl) {i : Nat} (hi : i ≤ 49) : tabCos fl 49 i = fl (fl (2 * i / 49) - 1) := by
  unfold tabCos
  have : IsDouble (2 * (i : ℝ)) := by
    have := double_int (n := 2 * i) (by rw [abs_of_nonneg (by omega)]; omega)
    push_cast at this
    exact this
  rw [h.fix this]
  norm_num

theorem tabCos_near (h : Double fl) {i : Nat} (hi : i ≤ 49) : |tabCos fl 49 i - (2 * i / 49 - 1)| ≤ 18 / 2 ^ 53 := by
  rw [tabCos_eq h hi]
  have hi' : (i : ℝ) ≤ 49 := by exact_mod_cast hi
  have h0 : (0 : ℝ) ≤ i := by positivity
  have e1 := abs_le.1 (err8 h (w := 2 * (i : ℝ) / 49) (by rw [abs_le]; constructor <;> linarith))
  set t := fl (2 * (i : ℝ) / 49)
  have e2 := abs_le.1 (err8 h (w := t - 1) (by norm_num at e1; rw [abs_le]; constructor <;> linarith [e1.1, e1.2]))
  rw [abs_le]
  norm_num at e1 e2 ⊢
  constructor <;> linarith [e1.1, e1.2, e2.1, e2.2]

theorem tabCos_ends (h : Double fl) : tabCos fl 49 0 = -1 ∧ tabCos fl 49 49 = 1 := by
  rw [tabCos_eq h (by norm_num), tabCos_eq h le_rfl]
  have z : fl 0 = 0 := h.fix isFloat_zero
  have t : fl 2 = 2 := h.fix (by simpa using double_int (n := 2) (by norm_num))
  have m : fl (-1) = -1 := h.fix double_one.neg
  have o : fl 1 = 1 := h.fix double_one
  constructor
  · norm_num [z, m]
  · norm_num [t, o]

theorem tabCos_abs (h : Double fl) {i : Nat} (hi : i ≤ 49) : |tabCos fl 49 i| ≤ 1 := by
  have hi' : (i : ℝ) ≤ 49 := by exact_mod_cast hi
  have h0 : (0 : ℝ) ≤ i := by positivity
  have t : IsDouble (2 : ℝ) := by simpa using double_int (n := 2) (by norm_num)
  rw [tabCos_eq h hi]
  have a0 : 0 ≤ fl (2 * (i : ℝ) / 49) := h.nonneg (by positivity)
  have a1 : fl (2 * (i : ℝ) / 49) ≤ 2 := h.le_of t (by linarith)
  exact h.abs_le_of double_one (by rw [abs_le]; constructor <;> linarith)

/-- The weight of a row lies between a half and four. -/
theorem tabWeight (h : Double fl) {a c : ℝ} (ha : 1 / 2 ≤ a) (ha4 : a ≤ 4) (hc : |c| ≤ 1) :
    1 / 2 ≤ fl (1 + fl (fl (fl (a - 1) * c) * c)) ∧ fl (1 + fl (fl (fl (a - 1) * c) * c)) ≤ 4 := by
  have dh : IsDouble (1 / 2 : ℝ) := by
    have := isFloat_zpow (p := 53) (emin := -1074) (e := -1) (by norm_num) (by norm_num)
    have e : (2 : ℝ) ^ (-1 : Int) = 1 / 2 := by norm_num
    rwa [e] at this
  have d3 : IsDouble (3 : ℝ) := by simpa using double_int (n := 3) (by norm_num)
  have d4 : IsDouble (4 : ℝ) := by simpa using double_int (n := 4) (by norm_num)
  have b0 : -(1 / 2) ≤ fl (a - 1) := h.ge_of dh.neg (by linarith)
  have b1 : fl (a - 1) ≤ 3 := h.le_of d3 (by linarith)
  set b := fl (a - 1) with hb
  have key : ∀ u B : ℝ, IsDouble B → |u| ≤ B → |fl (u * c)| ≤ B := fun u B hB hu => h.abs_le_of hB (by
    rw [abs_mul]; nlinarith [abs_nonneg u, abs_nonneg c])
  have lo : -(1 / 2) ≤ fl (fl (b * c) * c) := by
    rcases le_total 0 b with hn | hn
    · have : 0 ≤ fl (fl (b * c) * c) := by
        apply h.nonneg
        rcases le_total 0 c with hc0 | hc0
        · exact mul_nonneg (h.nonneg (mul_nonneg hn hc0)) hc0
        · have : fl (b * c) ≤ 0 := h.le_of isFloat_zero (mul_nonpos_of_nonneg_of_nonpos hn hc0)
          exact mul_nonneg_of_nonpos_of_nonpos this hc0
      linarith
    · have b2 : |b| ≤ 1 / 2 := by rw [abs_le]; constructor <;> linarith
      exact (abs_le.1 (key _ _ dh (key _ _ dh b2))).1
  have hi : fl (fl (b * c) * c) ≤ 3 := by
    have b2 : |b| ≤ 3 := by rw [abs_le]; constructor <;> linarith
    exact (abs_le.1 (key _ _ d3 (key _ _ d3 b2))).2
  exact ⟨h.ge_of dh (by linarith), h.le_of d4 (by linarith)⟩

theorem err512 (h : Double fl) {w : ℝ} (hw : |w| ≤ 512) : |fl w - w| ≤ 1 / 2 ^ 40 := by
  have := h.any (x := w) (by norm_num)
  have e := eta_le (k := 0) (by norm_num)
  rw [zpow_zero, one_mul] at e
  set η : ℝ := 2 ^ (-1074 : Int) / 2
  norm_num at this e ⊢
  linarith

theorem tabSum_step (h : Double fl) {a : ℝ} (ha : 1 / 2 ≤ a) (ha4 : a ≤ 4) : ∀ i : Nat, i ≤ 49 →
    (i : ℝ) / 4 ≤ tabSum fl a 49 i ∧ tabSum fl a 49 i ≤ 5 * i ∧
    (i < 49 → tabSum fl a 49 i + 1 / 4 ≤ tabSum fl a 49 (i + 1) ∧ tabSum fl a 49 (i + 1) ≤ tabSum fl a 49 i + 5) := by
  have step : ∀ i : Nat, i < 49 → (i : ℝ) / 4 ≤ tabSum fl a 49 i → tabSum fl a 49 i ≤ 5 * i →
      tabSum fl a 49 i + 1 / 4 ≤ tabSum fl a 49 (i + 1) ∧ tabSum fl a 49 (i + 1) ≤ tabSum fl a 49 i + 5 := by
    intro i hi l u
    have hi' : (i : ℝ) ≤ 49 := by exact_mod_cast hi.le
    have h0 : (0 : ℝ) ≤ i := by positivity
    obtain ⟨w0, w1⟩ := tabWeight h ha ha4 (tabCos_abs h (i := i + 1) (by omega))
    have e := abs_le.1 (err512 h (w := tabSum fl a 49 i + fl (1 + fl (fl (fl (a - 1) * tabCos fl 49 (i + 1)) * tabCos fl 49 (i + 1)))) (by
      rw [abs_le]; constructor <;> linarith))
    rw [tabSum]
    norm_num at e ⊢
    constructor <;> linarith [e.1, e.2]
  intro i
  induction i with
  | zero => intro _; simp only [tabSum]; refine ⟨by norm_num, by norm_num, fun _ => ?_⟩; exact step 0 (by norm_num) (by simp [tabSum]) (by simp [tabSum])
  | succ i ih =>
      intro hi
      obtain ⟨l, u, s⟩ := ih (by omega)
      obtain ⟨s1, s2⟩ := s (by omega)
      have l' : ((i + 1 : Nat) : ℝ) / 4 ≤ tabSum fl a 49 (i + 1) := by push_cast; linarith
      have u' : tabSum fl a 49 (i + 1) ≤ 5 * ((i + 1 : Nat) : ℝ) := by push_cast; linarith
      exact ⟨l', u', fun hh => step _ hh l' u'⟩

theorem table_good (h : Double fl) {a : ℝ} (ha : 1 / 2 ≤ a) (ha4 : a ≤ 4) :
    GoodTable 49 (tabCos fl 49) (fun i => fl (tabSum fl a 49 i / tabSum fl a 49 49)) := by
  have S := tabSum_step h ha ha4
  obtain ⟨t0, t1, -⟩ := S 49 le_rfl
  norm_num at t0 t1
  have tp : 0 < tabSum fl a 49 49 := by linarith
  have mono : ∀ k, k ≤ 49 → tabSum fl a 49 (49 - k) ≤ tabSum fl a 49 49 := by
    intro k
    induction k with
    | zero => intro _; exact le_rfl
    | succ k ih =>
        intro hk
        have := ((S (49 - (k + 1)) (by omega)).2.2 (by omega)).1
        rw [show 49 - (k + 1) + 1 = 49 - k by omega] at this
        have := ih (by omega)
        linarith
  have q01 : ∀ i, i ≤ 49 → 0 ≤ tabSum fl a 49 i / tabSum fl a 49 49 ∧ tabSum fl a 49 i / tabSum fl a 49 49 ≤ 1 := by
    intro i hi
    have l := (S i hi).1
    have hi0 : (0 : ℝ) ≤ i := by positivity
    have m := mono (49 - i) (by omega)
    rw [show 49 - (49 - i) = i by omega] at m
    exact ⟨div_nonneg (by linarith) tp.le, (div_le_one tp).2 m⟩
  have e : ∀ i, i ≤ 49 → |fl (tabSum fl a 49 i / tabSum fl a 49 49) - tabSum fl a 49 i / tabSum fl a 49 49| ≤ 9 / 2 ^ 53 := fun i hi => by
    obtain ⟨a0, a1⟩ := q01 i hi
    exact err8 h (by rw [abs_le]; constructor <;> linarith)
  refine ⟨by norm_num, ⟨(tabCos_ends h).1, ?_⟩, ⟨(tabCos_ends h).2, ?_⟩, fun i _ => ⟨h.float _, h.float _⟩, ?_, ?_, ?_, ?_⟩
  · show fl (tabSum fl a 49 0 / _) = 0
    rw [tabSum, zero_div]
    exact h.fix isFloat_zero
  · show fl (tabSum fl a 49 49 / _) = 1
    rw [div_self tp.ne']
    exact h.fix double_one
  · intro i h0 h1
    have n := abs_le.1 (tabCos_near h (i := i) (by omega))
    have i0 : (1 : ℝ) ≤ i := by exact_mod_cast h0
    have i1 : (i : ℝ) ≤ 48 := by exact_mod_cast (by omega : i ≤ 48)
    rw [abs_le]
    norm_num at n ⊢
    constructor <;> linarith [n.1, n.2]
  · intro i hi
    constructor
    · rw [tabCos_eq h hi.le, tabCos_eq h hi]
      apply h.mono
      have : fl (2 * (i : ℝ) / 49) ≤ fl (2 * ((i + 1 : Nat) : ℝ) / 49) := h.mono (by push_cast; linarith)
      linarith
    · have e1 := abs_le.1 (e i hi.le)
      have e2 := abs_le.1 (e (i + 1) hi)
      have s := ((S i hi.le).2.2 hi).1
      have q : tabSum fl a 49 i / tabSum fl a 49 49 + 1 / 1000 ≤ tabSum fl a 49 (i + 1) / tabSum fl a 49 49 := by
        rw [div_add' _ _ _ tp.ne', div_le_div_iff_of_pos_right tp]
        linarith
      norm_num at e1 e2 ⊢
      linarith [e1.2, e2.1]
  · have n := abs_le.1 (tabCos_near h (i := 48) (by norm_num))
    show 1 / 2 ≤ tabCos fl 49 48
    norm_num at n ⊢
    linarith [n.1]
  · have e1 := abs_le.1 (e 48 (by norm_num))
    obtain ⟨l, -, s⟩ := S 48 (by norm_num)
    have s := (s (by norm_num)).2
    norm_num at l s
    have q : 3 / 5 ≤ tabSum fl a 49 48 / tabSum fl a 49 49 := by
      rw [le_div_iff₀ tp]
      linarith
    show 1 / 2 ≤ fl (tabSum fl a 49 48 / tabSum fl a 49 49)
    norm_num at e1 ⊢
    linarith [e1.1]

/-- **C124.** Fragment directions drawn with a tabulated anisotropy: for every coefficient between a half and four (all those
shipped in anisotropy.dat are between 1 and 1.9), the table being built in `double` arithmetic with its 50 rows, and for every
random number, the cosine is a number between -1 and 1 and the sine is a number between 0 and 1. -/
theorem C124_anisotropic (h : Double fl) {a r : ℝ} (ha : 1 / 2 ≤ a) (ha4 : a ≤ 4) (hr0 : 0 ≤ r) (hr1 : r < 1) :
    ∃ c s, tableCos fl (tabRows fl a 49) r = some c ∧ |c| ≤ 1 ∧ sinOf fl c = some s ∧ 0 ≤ s ∧ s ≤ 1 := by
  obtain ⟨c, e, hc⟩ := C124_table h (table_good h ha ha4) hr0 hr1
  obtain ⟨s, es, -, s0, s1⟩ := sinOf_some h hc
  exact ⟨c, s, e, hc, es, s0, s1⟩

/-- Roundings to `double` exist; the table of coefficient 3/2 at the random number 1/3, and the direction of (3, -4, 12). -/
example : ∃ fl, Double fl ∧ ∃ c s, tableCos fl (tabRows fl (3 / 2) 49) (1 / 3) = some c ∧ |c| ≤ 1 ∧ sinOf fl c = some s ∧ 0 ≤ s ∧ s ≤ 1 :=
  ⟨_, nearest_roundTo (by norm_num), C124_anisotropic (nearest_roundTo (by norm_num)) (by norm_num) (by norm_num) (by norm_num) (by norm_num)⟩

example : ∃ fl, Double fl ∧ ∃ a b c, dircos fl 3 (-4) 12 = some (a, b, c) ∧ |a| ≤ 1 ∧ |b| ≤ 1 ∧ |c| ≤ 1 := by
  refine ⟨_, nearest_roundTo (by norm_num), ?_⟩
  refine C123_range (nearest_roundTo (by norm_num)) ?_ ?_ ?_ (Or.inl ?_)
  · simpa using double_int (n := 3) (by norm_num)
  · simpa using double_int (n := -4) (by norm_num)
  · simpa using double_int (n := 12) (by norm_num)
  · refine (zpow_le_one_of_nonpos₀ (by norm_num) (by norm_num)).trans ?_
    norm_num

end CGMF.Props

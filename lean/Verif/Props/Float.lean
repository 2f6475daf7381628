import Verif.Model.Float
import Verif.Proofs.Float

/-!
# C123, C124: directions in double arithmetic
-/

namespace CGMF.Props

open CGMF.Fp

variable {fl : ℝ → ℝ}

theorem double_int {n : Int} (hn : |n| ≤ 2 ^ 53) : IsDouble (n : ℝ) := isFloat_int hn (by norm_num) (by norm_num)

theorem double_one : IsDouble (1 : ℝ) := by simpa using double_int (n := 1) (by norm_num)

theorem big_sq {x : ℝ} (hx : (2 : ℝ) ^ (-400 : Int) ≤ |x|) :
    (2 : ℝ) ^ (((53 : Nat) : Int) - 1 + -1074) ≤ |x| ∧ (2 : ℝ) ^ (((53 : Nat) : Int) - 1 + -1074) ≤ x * x := by
  constructor
  · refine le_trans ?_ hx
    exact zpow_le_zpow_right₀ (by norm_num) (by norm_num)
  · rw [← abs_mul_abs_self]
    have h0 : (0 : ℝ) < 2 ^ (-400 : Int) := by positivity
    calc (2 : ℝ) ^ (((53 : Nat) : Int) - 1 + -1074) ≤ 2 ^ (-400 + -400 : Int) := zpow_le_zpow_right₀ (by norm_num) (by norm_num)
      _ = 2 ^ (-400 : Int) * 2 ^ (-400 : Int) := zpow_add₀ (by norm_num) _ _
      _ ≤ |x| * |x| := mul_le_mul hx hx h0.le (abs_nonneg _)

/-- The computed length is at least each component in absolute value. -/
theorem length_ge (h : Double fl) {x y z : ℝ} (hx : IsDouble x) (hy : IsDouble y) (hz : IsDouble z)
    (hbig : (2 : ℝ) ^ (-400 : Int) ≤ |x| ∨ (2 : ℝ) ^ (-400 : Int) ≤ |y| ∨ (2 : ℝ) ^ (-400 : Int) ≤ |z|) :
    ∃ v, length3 fl x y z = some v ∧ v = fl (Real.sqrt (fl (fl (fl (x * x) + fl (y * y)) + fl (z * z)))) ∧
      (2 : ℝ) ^ (-400 : Int) ≤ v ∧ |x| ≤ v ∧ |y| ≤ v ∧ |z| ≤ v := by
  have a1 := h.nonneg (mul_self_nonneg x)
  have a2 := h.nonneg (mul_self_nonneg y)
  have a3 := h.nonneg (mul_self_nonneg z)
  have b1 : fl (x * x) ≤ fl (fl (x * x) + fl (y * y)) := h.ge_of (h.float _) (by linarith)
  have b2 : fl (y * y) ≤ fl (fl (x * x) + fl (y * y)) := h.ge_of (h.float _) (by linarith)
  have c1 : fl (fl (x * x) + fl (y * y)) ≤ fl (fl (fl (x * x) + fl (y * y)) + fl (z * z)) := h.ge_of (h.float _) (by linarith)
  have c2 : fl (z * z) ≤ fl (fl (fl (x * x) + fl (y * y)) + fl (z * z)) := h.ge_of (h.float _) (by linarith)
  set S := fl (fl (fl (x * x) + fl (y * y)) + fl (z * z)) with hS
  have hpos : 0 ≤ S := by linarith
  refine ⟨fl (Real.sqrt S), ?_, rfl, ?_⟩
  · unfold length3 fsqrt
    rw [← hS, if_neg (by linarith)]
  have key : ∀ w, IsDouble w → fl (w * w) ≤ S → (2 : ℝ) ^ (-400 : Int) ≤ |w| → |w| ≤ fl (Real.sqrt S) := fun w hw hq hb =>
    h.sqrt_sq (by norm_num) hw (big_sq hb).1 (big_sq hb).2 hq
  have low : (2 : ℝ) ^ (-400 : Int) ≤ fl (Real.sqrt S) := by
    rcases hbig with hb | hb | hb
    · exact hb.trans (key x hx (by linarith) hb)
    · exact hb.trans (key y hy (by linarith) hb)
    · exact hb.trans (key z hz (by linarith) hb)
  have all : ∀ w, IsDouble w → fl (w * w) ≤ S → |w| ≤ fl (Real.sqrt S) := by
    intro w hw hq
    rcases le_total ((2 : ℝ) ^ (-400 : Int)) |w| with hb | hb
    · exact key w hw hq hb
    · exact hb.trans low
  exact ⟨low, all x hx (by linarith), all y hy (by linarith), all z hz c2⟩

theorem div_one (h : Double fl) {a v : ℝ} (hv : 0 < v) (ha : |a| ≤ v) : ∃ u, fdiv fl a v = some u ∧ u = fl (a / v) ∧ |u| ≤ 1 := by
  refine ⟨fl (a / v), by rw [fdiv, if_neg hv.ne'], rfl, h.abs_le_of double_one ?_⟩
  rw [abs_div, abs_of_pos hv, div_le_one hv]
  exact ha

/-- **C123.** Direction cosines in `double` arithmetic: for every rounding to nearest and every vector of doubles that is not
tiny, the three cosines are numbers between -1 and 1. -/
theorem C123_range (h : Double fl) {x y z : ℝ} (hx : IsDouble x) (hy : IsDouble y) (hz : IsDouble z)
    (hbig : (2 : ℝ) ^ (-400 : Int) ≤ |x| ∨ (2 : ℝ) ^ (-400 : Int) ≤ |y| ∨ (2 : ℝ) ^ (-400 : Int) ≤ |z|) :
    ∃ a b c, dircos fl x y z = some (a, b, c) ∧ |a| ≤ 1 ∧ |b| ≤ 1 ∧ |c| ≤ 1 := by
  obtain ⟨v, e, -, low, h1, h2, h3⟩ := length_ge h hx hy hz hbig
  have hv : 0 < v := lt_of_lt_of_le (by positivity) low
  obtain ⟨a, ea, -, ha⟩ := div_one h hv h1
  obtain ⟨b, eb, -, hb⟩ := div_one h hv h2
  obtain ⟨c, ec, -, hc⟩ := div_one h hv h3
  exact ⟨a, b, c, by unfold dircos; rw [e]; simp [ea, eb, ec], ha, hb, hc⟩

theorem sq_near {u t κ : ℝ} (ht : |t| ≤ 1) (hκ0 : 0 ≤ κ) (hκ : κ ≤ 1 / 2 ^ 200) (h : |u - t| ≤ |t| / 2 ^ 53 + κ) :
    |u * u - t * t| ≤ (2 + 1 / 100) / 2 ^ 53 * (t * t) + 4 * κ := by
  have h0 := abs_nonneg t
  have e : u * u - t * t = (u - t) * (u + t) := by ring
  have h2 : |u + t| ≤ 2 * |t| + (|t| / 2 ^ 53 + κ) := by
    have : u + t = (u - t) + 2 * t := by ring
    rw [this]
    refine (abs_add_le _ _).trans ?_
    rw [abs_mul, abs_two]
    linarith
  rw [e, abs_mul]
  refine (mul_le_mul h h2 (abs_nonneg _) (by positivity)).trans ?_
  have ett : t * t = |t| * |t| := (abs_mul_abs_self t).symm
  rw [ett]
  have k1 : |t| * κ ≤ κ := by nlinarith
  have k2 : κ * κ ≤ κ / 2 ^ 200 := by
    have := mul_le_mul_of_nonneg_left hκ hκ0
    linarith
  have k3 : 0 ≤ |t| * κ := by positivity
  have k4 : (0 : ℝ) ≤ |t| * |t| := by positivity
  have expand : (|t| / 2 ^ 53 + κ) * (2 * |t| + (|t| / 2 ^ 53 + κ)) =
      (2 / 2 ^ 53 + 1 / 2 ^ 53 / 2 ^ 53) * (|t| * |t|) + (2 + 2 / 2 ^ 53) * (|t| * κ) + κ * κ := by ring
  rw [expand]
  norm_num at k2 ⊢
  linarith

theorem eta_le {k : Int} (hk : -1074 ≤ k + -200) : (2 : ℝ) ^ (-1074 : Int) / 2 ≤ 2 ^ k * (1 / 2 ^ 200) := by
  have e : (1 : ℝ) / 2 ^ 200 = 2 ^ (-200 : Int) := by
    rw [zpow_neg, one_div]
    norm_cast
  rw [e, ← zpow_add₀ (by norm_num)]
  exact (half_le_self (by positivity)).trans (zpow_le_zpow_right₀ (by norm_num) hk)

/-- **C123.** The squares of the computed cosines add up to one within eight units of the last place. -/
theorem C123_norm (h : Double fl) {x y z : ℝ} (hx : IsDouble x) (hy : IsDouble y) (hz : IsDouble z)
    (hbig : (2 : ℝ) ^ (-400 : Int) ≤ |x| ∨ (2 : ℝ) ^ (-400 : Int) ≤ |y| ∨ (2 : ℝ) ^ (-400 : Int) ≤ |z|) :
    ∃ a b c, dircos fl x y z = some (a, b, c) ∧ |a * a + b * b + c * c - 1| ≤ 8 / 2 ^ 53 := by
  obtain ⟨v, e, ev, low, h1, h2, h3⟩ := length_ge h hx hy hz hbig
  have hv : 0 < v := lt_of_lt_of_le (by positivity) low
  obtain ⟨a, ea, ha, -⟩ := div_one h hv h1
  obtain ⟨b, eb, hb, -⟩ := div_one h hv h2
  obtain ⟨c, ec, hc, -⟩ := div_one h hv h3
  refine ⟨a, b, c, by unfold dircos; rw [e]; simp [ea, eb, ec], ?_⟩
  set N := x * x + y * y + z * z with hN
  set η : ℝ := 2 ^ (-1074 : Int) / 2 with hη
  have hη0 : 0 ≤ η := by rw [hη]; positivity
  have hNbig : (2 : ℝ) ^ (-800 : Int) ≤ N := by
    have q : ∀ w : ℝ, (2 : ℝ) ^ (-400 : Int) ≤ |w| → (2 : ℝ) ^ (-800 : Int) ≤ w * w := by
      intro w hw
      rw [← abs_mul_abs_self, show (-800 : Int) = -400 + -400 by norm_num, zpow_add₀ (by norm_num)]
      exact mul_le_mul hw hw (by positivity) (abs_nonneg _)
    have := mul_self_nonneg x
    have := mul_self_nonneg y
    have := mul_self_nonneg z
    rcases hbig with hb | hb | hb <;> have := q _ hb <;> linarith
  have hN0 : 0 < N := lt_of_lt_of_le (by positivity) hNbig
  have hηsmall : η ≤ 2 ^ (-400 : Int) * (1 / 2 ^ 200) := by
    rw [hη]
    exact eta_le (by norm_num)
  have hηN : η ≤ N * (1 / 2 ^ 200) := by
    refine le_trans ?_ (mul_le_mul_of_nonneg_right hNbig (by positivity))
    rw [hη]
    exact eta_le (by norm_num)
  have hη1 : η ≤ 1 / 2 ^ 200 := by
    refine hηsmall.trans ?_
    have : (2 : ℝ) ^ (-400 : Int) ≤ 1 := zpow_le_one_of_nonpos₀ (by norm_num) (by norm_num)
    exact mul_le_of_le_one_left (by positivity) this
  have any : ∀ w, |fl w - w| ≤ |w| / 2 ^ 53 + η := fun w => h.any (by norm_num)
  -- the sum of squares
  set A := fl (x * x) with hA
  set B := fl (y * y) with hB
  set C := fl (z * z) with hC
  set D := fl (A + B) with hD
  set S := fl (D + C) with hS
  have nA : 0 ≤ A := h.nonneg (mul_self_nonneg x)
  have nB : 0 ≤ B := h.nonneg (mul_self_nonneg y)
  have nC : 0 ≤ C := h.nonneg (mul_self_nonneg z)
  have nD : 0 ≤ D := h.nonneg (by linarith)
  have pA := abs_le.1 (any (x * x))
  have pB := abs_le.1 (any (y * y))
  have pC := abs_le.1 (any (z * z))
  have pD := abs_le.1 (any (A + B))
  have pS := abs_le.1 (any (D + C))
  rw [abs_of_nonneg (mul_self_nonneg _), ← hA] at pA
  rw [abs_of_nonneg (mul_self_nonneg _), ← hB] at pB
  rw [abs_of_nonneg (mul_self_nonneg _), ← hC] at pC
  rw [abs_of_nonneg (by linarith), ← hD] at pD
  rw [abs_of_nonneg (by linarith), ← hS] at pS
  have sx := mul_self_nonneg x
  have sy := mul_self_nonneg y
  have sz := mul_self_nonneg z
  have S1 : S ≤ N * (1 + (3 + 1 / 10) / 2 ^ 53) := by
    rw [hN] at hηN ⊢
    norm_num at pA pB pC pD pS hηN ⊢
    linarith [pA.2, pB.2, pC.2, pD.2, pS.2]
  have S2 : N * (1 - (3 + 1 / 10) / 2 ^ 53) ≤ S := by
    rw [hN] at hηN ⊢
    norm_num at pA pB pC pD pS hηN ⊢
    linarith [pA.1, pB.1, pC.1, pD.1, pS.1, pA.2, pB.2, pC.2, pD.2]
  have hS0 : 0 < S := lt_of_lt_of_le (by positivity) S2
  -- the root
  set s := Real.sqrt S with hs
  have ss : s * s = S := Real.mul_self_sqrt hS0.le
  have s0 : 0 < s := Real.sqrt_pos.2 hS0
  have hηs : η ≤ s * (1 / 2 ^ 200) := by
    have : (2 : ℝ) ^ (-401 : Int) ≤ s := by
      apply Real.le_sqrt_of_sq_le
      rw [← zpow_natCast, ← zpow_mul]
      have h8 : (2 : ℝ) ^ ((-401 : Int) * ((2 : Nat) : Int)) ≤ 2 ^ (-800 : Int) * (1 / 2) := by
        rw [show (1 / 2 : ℝ) = 2 ^ (-1 : Int) by norm_num, ← zpow_add₀ (by norm_num)]
        exact zpow_le_zpow_right₀ (by norm_num) (by norm_num)
      refine h8.trans (le_trans ?_ S2)
      have : N * (1 / 2) ≤ N * (1 - (3 + 1 / 10) / 2 ^ 53) := by
        apply mul_le_mul_of_nonneg_left _ hN0.le
        norm_num
      linarith
    refine le_trans ?_ (mul_le_mul_of_nonneg_right this (by positivity))
    rw [hη]
    exact eta_le (by norm_num)
  have pv := abs_le.1 (any s)
  rw [abs_of_pos s0, ← ev] at pv
  have v1 : v ≤ s * (1 + (1 + 1 / 100) / 2 ^ 53) := by
    norm_num at pv hηs ⊢
    linarith [pv.2]
  have v2 : s * (1 - (1 + 1 / 100) / 2 ^ 53) ≤ v := by
    norm_num at pv hηs ⊢
    linarith [pv.1]
  have vv1 : v * v ≤ N * (1 + (5 + 2 / 10) / 2 ^ 53) := by
    have : v * v ≤ (s * (1 + (1 + 1 / 100) / 2 ^ 53)) * (s * (1 + (1 + 1 / 100) / 2 ^ 53)) := mul_le_mul v1 v1 hv.le (by positivity)
    have e2 : (s * (1 + (1 + 1 / 100) / 2 ^ 53)) * (s * (1 + (1 + 1 / 100) / 2 ^ 53)) = S * ((1 + (1 + 1 / 100) / 2 ^ 53) * (1 + (1 + 1 / 100) / 2 ^ 53)) := by
      rw [← ss]; ring
    rw [e2] at this
    norm_num at this S1 ⊢
    linarith
  have vv2 : N * (1 - (5 + 2 / 10) / 2 ^ 53) ≤ v * v := by
    have : (s * (1 - (1 + 1 / 100) / 2 ^ 53)) * (s * (1 - (1 + 1 / 100) / 2 ^ 53)) ≤ v * v :=
      mul_le_mul v2 v2 (mul_nonneg s0.le (by norm_num)) hv.le
    have e2 : (s * (1 - (1 + 1 / 100) / 2 ^ 53)) * (s * (1 - (1 + 1 / 100) / 2 ^ 53)) = S * ((1 - (1 + 1 / 100) / 2 ^ 53) * (1 - (1 + 1 / 100) / 2 ^ 53)) := by
      rw [← ss]; ring
    rw [e2] at this
    norm_num at this S2 ⊢
    linarith
  -- the quotients
  have tle : ∀ w, |w| ≤ v → |w / v| ≤ 1 := fun w hw => by rw [abs_div, abs_of_pos hv, div_le_one hv]; exact hw
  have qa := abs_le.1 (sq_near (tle x h1) hη0 hη1 (any (x / v)))
  have qb := abs_le.1 (sq_near (tle y h2) hη0 hη1 (any (y / v)))
  have qc := abs_le.1 (sq_near (tle z h3) hη0 hη1 (any (z / v)))
  rw [← ha] at qa
  rw [← hb] at qb
  rw [← hc] at qc
  set tx := x / v * (x / v)
  set ty := y / v * (y / v)
  set tz := z / v * (z / v)
  have hT : tx + ty + tz = N / (v * v) := by
    simp only [tx, ty, tz, hN]
    field_simp
  have hvv : 0 < v * v := by positivity
  have T1 : tx + ty + tz ≤ 1 + (5 + 3 / 10) / 2 ^ 53 := by
    rw [hT, div_le_iff₀ hvv]
    norm_num at vv2 ⊢
    linarith
  have T2 : 1 - (5 + 3 / 10) / 2 ^ 53 ≤ tx + ty + tz := by
    rw [hT, le_div_iff₀ hvv]
    norm_num at vv1 ⊢
    linarith
  rw [abs_le]
  norm_num at qa qb qc T1 T2 hη1 ⊢
  constructor
  · linarith [qa.1, qb.1, qc.1]
  · linarith [qa.2, qb.2, qc.2]

/-- **C123.** A particle at rest has no direction: the cosines are not numbers. -/
theorem C123_rest (h : Double fl) : dircos fl 0 0 0 = none := by
  have e : fl 0 = 0 := h.fix isFloat_zero
  unfold dircos length3 fsqrt fdiv
  simp [e]

end CGMF.Props

import Verif.Spec.Float
import Mathlib.Data.Int.Log
import Mathlib.Algebra.Order.Round
import Mathlib.Analysis.Real.Sqrt
import Mathlib.Algebra.Order.Field.Power

/-! # Properties of rounding to nearest -/

namespace CGMF.Fp

variable {p : Nat} {emin : Int} {fl : ℝ → ℝ}

theorem zpow_nat_cast (n : Nat) : ((2 ^ n : Int) : ℝ) = (2 : ℝ) ^ (n : Int) := by
  push_cast; rw [zpow_natCast]

theorem round_mono {x y : ℝ} (h : x ≤ y) : round x ≤ round y := by
  rw [round_eq, round_eq]
  exact Int.floor_mono (by linarith)

theorem isFloat_zero : IsFloat p emin 0 := ⟨0, emin, by simp, le_rfl, by simp⟩

theorem IsFloat.neg {x : ℝ} (h : IsFloat p emin x) : IsFloat p emin (-x) := by
  obtain ⟨m, e, h1, h2, h3⟩ := h
  exact ⟨-m, e, by rwa [abs_neg], h2, by rw [h3]; push_cast; ring⟩

theorem IsFloat.abs {x : ℝ} (h : IsFloat p emin x) : IsFloat p emin |x| := by
  rcases abs_choice x with e | e <;> rw [e]
  · exact h
  · exact h.neg

/-- Multiples of `2^e` up to `2^(p+e)` are numbers of the format. -/
theorem isFloat_mul {m e : Int} (hm : |m| ≤ 2 ^ p) (he : emin ≤ e) (hp : 0 < p) : IsFloat p emin (m * (2 : ℝ) ^ e) := by
  rcases lt_or_eq_of_le hm with h | h
  · exact ⟨m, e, h, he, rfl⟩
  · obtain ⟨k, rfl⟩ : ∃ k, p = k + 1 := ⟨p - 1, by omega⟩
    have h2 : (2 : Int) ^ (k + 1) = 2 * 2 ^ k := by rw [pow_succ]; ring
    have hk : (0 : Int) < 2 ^ k := by positivity
    have e2 : (2 : ℝ) ^ (e + 1) = 2 ^ e * 2 := by rw [zpow_add₀ (by norm_num)]; norm_num
    rcases abs_choice m with hh | hh
    · refine ⟨2 ^ k, e + 1, by rw [abs_of_pos hk]; omega, by omega, ?_⟩
      rw [show m = 2 * 2 ^ k by omega, e2]; push_cast; ring
    · refine ⟨-2 ^ k, e + 1, by rw [abs_neg, abs_of_pos hk]; omega, by omega, ?_⟩
      rw [show m = -(2 * 2 ^ k) by omega, e2]; push_cast; ring

theorem isFloat_zpow {e : Int} (hp : 0 < p) (he : emin ≤ e) : IsFloat p emin ((2 : ℝ) ^ e) := by
  have := isFloat_mul (p := p) (emin := emin) (m := 1) (e := e) (by simp; exact one_le_pow₀ (by norm_num)) he hp
  simpa using this

theorem isFloat_int {n : Int} (hn : |n| ≤ 2 ^ p) (hp : 0 < p) (he : emin ≤ 0) : IsFloat p emin (n : ℝ) := by
  have := isFloat_mul (p := p) (emin := emin) (m := n) (e := 0) hn he hp
  simpa using this

/-- Large numbers of the format are multiples of a power of two. -/
theorem IsFloat.multiple {x : ℝ} (h : IsFloat p emin x) {e : Int} (hx : (2 : ℝ) ^ ((p : Int) - 1 + e) ≤ |x|) : ∃ k : Int, x = k * (2 : ℝ) ^ e := by
  obtain ⟨m, f, h1, h2, h3⟩ := h
  have hf : e ≤ f := by
    by_contra hc
    have hm : |(m : ℝ)| < (2 : ℝ) ^ (p : Int) := by rw [← zpow_nat_cast]; exact_mod_cast h1
    have : |x| < (2 : ℝ) ^ ((p : Int) + f) := by
      rw [h3, abs_mul, abs_of_pos (zpow_pos (by norm_num : (0 : ℝ) < 2) f), zpow_add₀ (by norm_num)]
      exact mul_lt_mul_of_pos_right hm (by positivity)
    have h5 : (2 : ℝ) ^ ((p : Int) + f) ≤ 2 ^ ((p : Int) - 1 + e) := zpow_le_zpow_right₀ (by norm_num) (by omega)
    linarith
  refine ⟨m * 2 ^ (f - e).toNat, ?_⟩
  rw [h3]
  have : (2 : ℝ) ^ f = 2 ^ (f - e).toNat * 2 ^ e := by
    rw [← zpow_natCast, ← zpow_add₀ (by norm_num), Int.toNat_of_nonneg (by omega)]
    congr 1; ring
  rw [this]; push_cast; ring

namespace Nearest

variable (h : Nearest p emin fl)
include h

theorem fix {x : ℝ} (hx : IsFloat p emin x) : fl x = x := by
  have := h.near x x hx
  simp only [sub_self, abs_zero, abs_nonpos_iff] at this
  linarith

theorem mono {x y : ℝ} (hxy : x ≤ y) : fl x ≤ fl y := by
  by_contra hc
  have hc := not_le.1 hc
  rcases hxy.eq_or_lt with e | hlt
  · rw [e] at hc; exact lt_irrefl _ hc
  have h1 := h.near x (fl y) (h.float y)
  have h2 := h.near y (fl x) (h.float x)
  rcases abs_cases (fl x - x) with ⟨a1, _⟩ | ⟨a1, _⟩ <;> rcases abs_cases (fl y - x) with ⟨a2, _⟩ | ⟨a2, _⟩ <;>
    rcases abs_cases (fl y - y) with ⟨a3, _⟩ | ⟨a3, _⟩ <;> rcases abs_cases (fl x - y) with ⟨a4, _⟩ | ⟨a4, _⟩ <;>
    rw [a1, a2] at h1 <;> rw [a3, a4] at h2 <;> linarith

theorem le_of {x b : ℝ} (hb : IsFloat p emin b) (hx : x ≤ b) : fl x ≤ b := by
  have := h.mono hx
  rwa [h.fix hb] at this

theorem ge_of {x b : ℝ} (hb : IsFloat p emin b) (hx : b ≤ x) : b ≤ fl x := by
  have := h.mono hx
  rwa [h.fix hb] at this

theorem nonneg {x : ℝ} (hx : 0 ≤ x) : 0 ≤ fl x := h.ge_of isFloat_zero hx

theorem abs_le_of {x b : ℝ} (hb : IsFloat p emin b) (hx : |x| ≤ b) : |fl x| ≤ b := by
  rw [abs_le] at hx ⊢
  exact ⟨h.ge_of hb.neg hx.1, h.le_of hb hx.2⟩

/-- Error of a rounding: half a unit in the last place, where `2^(p+e)` bounds the number. -/
theorem error {x : ℝ} {e : Int} (hp : 0 < p) (he : emin ≤ e) (hx : |x| ≤ 2 ^ ((p : Int) + e)) : |fl x - x| ≤ 2 ^ e / 2 := by
  have h2 : (0 : ℝ) < 2 ^ e := by positivity
  have hr := abs_sub_round (x / 2 ^ e)
  have hb : |x / 2 ^ e| ≤ ((2 ^ p : Int) : ℝ) := by
    rw [abs_div, abs_of_pos h2, div_le_iff₀ h2, zpow_nat_cast, ← zpow_add₀ (by norm_num)]; exact hx
  have hm : |round (x / 2 ^ e)| ≤ 2 ^ p := by
    rw [abs_le] at hb ⊢
    constructor
    · have : (((-2 ^ p : Int)) : ℝ) ≤ x / 2 ^ e := by push_cast at hb ⊢; exact hb.1
      have := round_mono this
      simpa only [round_intCast] using this
    · have := round_mono hb.2
      simpa only [round_intCast] using this
  refine (h.near x _ (isFloat_mul hm he hp)).trans ?_
  have : (round (x / 2 ^ e) : ℝ) * 2 ^ e - x = -((x / 2 ^ e - round (x / 2 ^ e)) * 2 ^ e) := by field_simp; ring
  rw [this, abs_neg, abs_mul, abs_of_pos h2]
  nlinarith

/-- Relative error of a rounding, for numbers that are not subnormal. -/
theorem relative {x : ℝ} (hp : 0 < p) (hx : (2 : ℝ) ^ ((p : Int) - 1 + emin) ≤ |x|) : |fl x - x| ≤ |x| / 2 ^ p := by
  have h0 : 0 < |x| := lt_of_lt_of_le (by positivity) hx
  set l := Int.log 2 |x| with hl
  have l1 : (2 : ℝ) ^ l ≤ |x| := by simpa using Int.zpow_log_le_self (R := ℝ) (b := 2) (by norm_num) h0
  have l2 : |x| < (2 : ℝ) ^ (l + 1) := by simpa using Int.lt_zpow_succ_log_self (R := ℝ) (b := 2) (by norm_num) |x|
  have hle : (p : Int) - 1 + emin ≤ l := by
    have : (2 : ℝ) ^ ((p : Int) - 1 + emin) < 2 ^ (l + 1) := lt_of_le_of_lt hx l2
    have := (zpow_lt_zpow_iff_right₀ (by norm_num : (1 : ℝ) < 2)).1 this
    omega
  have he := h.error (x := x) (e := l - p + 1) hp (by omega) (by rw [show (p : Int) + (l - p + 1) = l + 1 by ring]; exact l2.le)
  refine he.trans ?_
  have : (2 : ℝ) ^ (l - p + 1) / 2 = 2 ^ l / 2 ^ p := by
    rw [show l - (p : Int) + 1 = l + 1 - p by ring, zpow_sub₀ (by norm_num), zpow_add₀ (by norm_num), zpow_natCast, zpow_one]; ring
  rw [this]
  gcongr

/-- Error of any rounding. -/
theorem any {x : ℝ} (hp : 0 < p) : |fl x - x| ≤ |x| / 2 ^ p + 2 ^ emin / 2 := by
  have h2 : (0 : ℝ) < 2 ^ emin := by positivity
  rcases le_total ((2 : ℝ) ^ ((p : Int) - 1 + emin)) |x| with hx | hx
  · have := h.relative hp hx; linarith
  · have := h.error (x := x) (e := emin) hp le_rfl (hx.trans (zpow_le_zpow_right₀ (by norm_num) (by omega)))
    have : 0 ≤ |x| / 2 ^ p := by positivity
    linarith

/-- The square root of a rounded square is not smaller than the number, in base two: the correctly rounded root of any
`q` above the rounded square of `x`. -/
theorem sqrt_sq {x q : ℝ} (hp : 1 < p) (hx : IsFloat p emin x) (hbig : (2 : ℝ) ^ ((p : Int) - 1 + emin) ≤ |x|)
    (hsq : (2 : ℝ) ^ ((p : Int) - 1 + emin) ≤ x * x) (hq : fl (x * x) ≤ q) : |x| ≤ fl (Real.sqrt q) := by
  have h0 : 0 < |x| := lt_of_lt_of_le (by positivity) hbig
  have hxx : x * x = |x| * |x| := (abs_mul_abs_self x).symm
  set l := Int.log 2 |x| with hl
  have l1 : (2 : ℝ) ^ l ≤ |x| := by simpa using Int.zpow_log_le_self (R := ℝ) (b := 2) (by norm_num) h0
  have l2 : |x| < (2 : ℝ) ^ (l + 1) := by simpa using Int.lt_zpow_succ_log_self (R := ℝ) (b := 2) (by norm_num) |x|
  have hle : (p : Int) - 1 + emin ≤ l := by
    have := (zpow_lt_zpow_iff_right₀ (by norm_num : (1 : ℝ) < 2)).1 (lt_of_le_of_lt hbig l2)
    omega
  set e := l - p + 1 with he
  have hpe : (p : Int) - 1 + e = l := by omega
  obtain ⟨M, hM⟩ := hx.abs.multiple (e := e) (by rw [hpe, abs_abs]; exact l1)
  have he0 : (0 : ℝ) < 2 ^ e := by positivity
  have hlo : (2 : Int) ^ (p - 1) ≤ M := by
    have : ((2 ^ (p - 1) : Int) : ℝ) * 2 ^ e ≤ M * 2 ^ e := by
      rw [← hM, zpow_nat_cast, ← zpow_add₀ (by norm_num), show ((p - 1 : Nat) : Int) + e = l by omega]; exact l1
    exact_mod_cast le_of_mul_le_mul_right this he0
  have hhi : M < 2 ^ p := by
    have : (M : ℝ) * 2 ^ e < ((2 ^ p : Int) : ℝ) * 2 ^ e := by
      rw [← hM, zpow_nat_cast, ← zpow_add₀ (by norm_num), show (p : Int) + e = l + 1 by omega]; exact l2
    exact_mod_cast lt_of_mul_lt_mul_right this he0.le
  rcases hlo.eq_or_lt with heq | hlt
  · -- a power of two
    have hxl : |x| = 2 ^ l := by
      rw [hM, ← heq, zpow_nat_cast, ← zpow_add₀ (by norm_num), show ((p - 1 : Nat) : Int) + e = l by omega]
    have hfl : IsFloat p emin (x * x) := by
      rw [hxx, hxl, ← zpow_add₀ (by norm_num)]
      apply isFloat_zpow (by omega)
      have h6 : (2 : ℝ) ^ ((p : Int) - 1 + emin) ≤ 2 ^ (l + l) := by
        rw [zpow_add₀ (by norm_num) l l, ← hxl, ← hxx]; exact hsq
      have := (zpow_le_zpow_iff_right₀ (by norm_num : (1 : ℝ) < 2)).1 h6
      omega
    rw [h.fix hfl, hxx] at hq
    apply h.ge_of hx.abs
    rw [← Real.sqrt_mul_self h0.le]
    exact Real.sqrt_le_sqrt hq
  · by_contra hc
    have hc := not_le.1 hc
    set y := fl (Real.sqrt q) with hy
    have hyle : y ≤ |x| - 2 ^ e := by
      rcases le_or_gt ((2 : ℝ) ^ l) |y| with hb | hb
      · obtain ⟨k, hk⟩ := (h.float (Real.sqrt q)).multiple (e := e) (by rw [hpe]; exact hb)
        rw [← hy] at hk
        have : k < M := by
          have : (k : ℝ) * 2 ^ e < M * 2 ^ e := by rw [← hk, ← hM]; exact hc
          exact_mod_cast lt_of_mul_lt_mul_right this he0.le
        have : (k : ℝ) + 1 ≤ M := by exact_mod_cast this
        rw [hk, hM]
        nlinarith
      · have : (2 ^ (p - 1) : Int) + 1 ≤ M := by omega
        have h7 : ((2 ^ (p - 1) : Int) : ℝ) + 1 ≤ M := by exact_mod_cast this
        have h8 : (2 : ℝ) ^ l = ((2 ^ (p - 1) : Int) : ℝ) * 2 ^ e := by
          rw [zpow_nat_cast, ← zpow_add₀ (by norm_num), show ((p - 1 : Nat) : Int) + e = l by omega]
        have := le_abs_self y
        rw [hM]
        nlinarith
    have hroot : |x| - 2 ^ e / 2 < Real.sqrt q := by
      have hrel := h.relative (x := x * x) (by omega) (by rw [abs_of_nonneg (mul_self_nonneg x)]; exact hsq)
      rw [abs_of_nonneg (mul_self_nonneg x)] at hrel
      have h9 : x * x - x * x / 2 ^ p ≤ q := by
        have := (abs_le.1 hrel).1
        linarith
      apply Real.lt_sqrt_of_sq_lt
      refine lt_of_lt_of_le ?_ h9
      rw [hxx, hM]
      have hP : (0 : ℝ) < 2 ^ p := by positivity
      have a1 : (M : ℝ) + 1 ≤ 2 ^ p := by exact_mod_cast hhi
      have a2 : (2 : ℝ) ^ p ≤ 2 * M := by
        have : (2 : Int) ^ p ≤ 2 * M := by
          obtain ⟨k, rfl⟩ : ∃ k, p = k + 1 := ⟨p - 1, by omega⟩
          rw [Nat.add_sub_cancel] at hlo
          rw [pow_succ]; omega
        exact_mod_cast this
      have a3 : (2 : ℝ) ≤ 2 ^ p := by
        calc (2 : ℝ) = 2 ^ 1 := by norm_num
          _ ≤ 2 ^ p := pow_le_pow_right₀ (by norm_num) (by omega)
      have a4 : (M : ℝ) * M / 2 ^ p < M - 1 / 4 := by
        rw [div_lt_iff₀ hP]
        nlinarith
      have e1 : (M : ℝ) * 2 ^ e * (M * 2 ^ e) - M * 2 ^ e * (M * 2 ^ e) / 2 ^ p = (M * M - M * M / 2 ^ p) * (2 ^ e) ^ 2 := by ring
      have e3 : ((M : ℝ) * 2 ^ e - 2 ^ e / 2) ^ 2 = (M * M - M + 1 / 4) * (2 ^ e) ^ 2 := by ring
      rw [e1, e3]
      apply mul_lt_mul_of_pos_right _ (by positivity)
      linarith
    have hn := h.near (Real.sqrt q) |x| hx.abs
    rw [← hy] at hn
    rcases le_total (Real.sqrt q) |x| with hs | hs
    · rw [abs_of_nonneg (by linarith : 0 ≤ |x| - Real.sqrt q), abs_of_neg (by linarith : y - Real.sqrt q < 0)] at hn
      linarith
    · rw [abs_of_nonpos (by linarith : |x| - Real.sqrt q ≤ 0), abs_of_neg (by linarith : y - Real.sqrt q < 0)] at hn
      linarith

end Nearest

/-- The exponent of the last place of `x`. -/
noncomputable def place (p : Nat) (emin : Int) (x : ℝ) : Int := max emin (Int.log 2 |x| - p + 1)

/-- A rounding to nearest, ties upwards. -/
noncomputable def roundTo (p : Nat) (emin : Int) (x : ℝ) : ℝ := round (x / 2 ^ place p emin x) * (2 : ℝ) ^ place p emin x

theorem round_near (y : ℝ) (k : Int) : |(round y : ℝ) - y| ≤ |(k : ℝ) - y| := by
  have := round_le y k
  rwa [abs_sub_comm y, abs_sub_comm y] at this

/-- Roundings to nearest exist. -/
theorem nearest_roundTo (hp : 0 < p) : Nearest p emin (roundTo p emin) := by
  have scaled : ∀ (x : ℝ) (k : Int), |roundTo p emin x - x| ≤ |(k : ℝ) * 2 ^ place p emin x - x| := by
    intro x k
    have h2 : (0 : ℝ) < 2 ^ place p emin x := by positivity
    have e : ∀ m : ℝ, m * 2 ^ place p emin x - x = (m - x / 2 ^ place p emin x) * 2 ^ place p emin x := by
      intro m; field_simp
    unfold roundTo
    rw [e, e, abs_mul, abs_mul]
    exact mul_le_mul_of_nonneg_right (round_near _ k) (abs_nonneg _)
  constructor
  · intro x
    have h2 : (0 : ℝ) < 2 ^ place p emin x := by positivity
    refine isFloat_mul ?_ (le_max_left _ _) hp
    have hb : |x / 2 ^ place p emin x| ≤ ((2 ^ p : Int) : ℝ) := by
      rw [abs_div, abs_of_pos h2, div_le_iff₀ h2, zpow_nat_cast, ← zpow_add₀ (by norm_num)]
      have l2 : |x| < (2 : ℝ) ^ (Int.log 2 |x| + 1) := by simpa using Int.lt_zpow_succ_log_self (R := ℝ) (b := 2) (by norm_num) |x|
      refine l2.le.trans (zpow_le_zpow_right₀ (by norm_num) ?_)
      have : Int.log 2 |x| - p + 1 ≤ place p emin x := le_max_right _ _
      omega
    rw [abs_le] at hb ⊢
    constructor
    · have : (((-2 ^ p : Int)) : ℝ) ≤ x / 2 ^ place p emin x := by push_cast at hb ⊢; exact hb.1
      have := round_mono this
      simpa only [round_intCast] using this
    · have := round_mono hb.2
      simpa only [round_intCast] using this
  · intro x y hy
    rcases le_or_gt ((2 : ℝ) ^ ((p : Int) - 1 + place p emin x)) |y| with hb | hb
    · obtain ⟨k, rfl⟩ := hy.multiple hb
      exact scaled x k
    · rcases le_or_gt (Int.log 2 |x| - p + 1) emin with hl | hl
      · have he : place p emin x = emin := max_eq_left hl
        obtain ⟨m, e, h1, h2, rfl⟩ := hy
        have := scaled x (m * 2 ^ (e - emin).toNat)
        rw [he] at this
        have e3 : (2 : ℝ) ^ e = 2 ^ (e - emin).toNat * 2 ^ emin := by
          rw [← zpow_natCast, ← zpow_add₀ (by norm_num), Int.toNat_of_nonneg (by omega)]
          congr 1; ring
        rw [e3]
        push_cast at this
        rwa [mul_assoc] at this
      · have he : place p emin x = Int.log 2 |x| - p + 1 := max_eq_right hl.le
        have hl' : (p : Int) - 1 + place p emin x = Int.log 2 |x| := by rw [he]; ring
        rw [hl'] at hb
        rcases eq_or_ne x 0 with hx | hx
        · subst hx
          have : roundTo p emin 0 = 0 := by simp [roundTo]
          simp [this]
        have l1 : (2 : ℝ) ^ Int.log 2 |x| ≤ |x| := by simpa using Int.zpow_log_le_self (R := ℝ) (b := 2) (by norm_num) (abs_pos.2 hx)
        have e4 : (2 : ℝ) ^ Int.log 2 |x| = ((2 ^ (p - 1) : Int) : ℝ) * 2 ^ place p emin x := by
          rw [zpow_nat_cast, ← zpow_add₀ (by norm_num)]
          congr 1; omega
        rcases le_total 0 x with h0 | h0
        · rw [abs_of_nonneg h0] at l1 e4 hb
          have := scaled x (2 ^ (p - 1))
          rw [← e4, abs_of_nonpos (show (2 : ℝ) ^ Int.log 2 x - x ≤ 0 by linarith)] at this
          refine this.trans ?_
          have := le_abs_self y
          rw [abs_of_neg (by linarith)]
          linarith
        · rw [abs_of_nonpos h0] at l1 e4 hb
          have := scaled x (-2 ^ (p - 1))
          have e5 : ((-2 ^ (p - 1) : Int) : ℝ) * 2 ^ place p emin x = -(2 : ℝ) ^ Int.log 2 (-x) := by rw [e4]; push_cast; ring
          rw [e5, abs_of_nonneg (show (0 : ℝ) ≤ -(2 : ℝ) ^ Int.log 2 (-x) - x by linarith)] at this
          refine this.trans ?_
          have := neg_abs_le y
          rw [abs_of_pos (by linarith)]
          linarith

end CGMF.Fp

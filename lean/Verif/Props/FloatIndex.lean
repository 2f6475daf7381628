import Verif.Props.FloatDirection

/-!
# C125: table indices drawn in double arithmetic
-/

namespace CGMF.Props

open CGMF.Fp

variable {fl : ℝ → ℝ}

/-- The product of a random number and an integer stays a unit in the last place below the integer. -/
theorem product_below (h : Double fl) {n : Int} {k : Nat} (hk : k ≤ 50) (hn1 : 2 ^ k < 2 * n) (hn2 : n ≤ 2 ^ k) {r : ℝ} (hr : IsDouble r)
    (hr1 : r < 1) : fl (r * n) ≤ n - 2 ^ ((k : Int) - 53) := by
  have hb := below_one hr hr1
  set g : ℝ := 2 ^ ((k : Int) - 53) with hg
  have g0 : 0 < g := by positivity
  have eg : g = 2 ^ k / 2 ^ 53 := by
    rw [hg, zpow_sub₀ (by norm_num), zpow_natCast]
    norm_num
  have n1 : (2 : ℝ) ^ k < 2 * n := by exact_mod_cast hn1
  have n2 : (n : ℝ) ≤ 2 ^ k := by exact_mod_cast hn2
  have npos : (0 : ℝ) < n := by
    have : (0 : ℝ) < 2 ^ k := by positivity
    linarith
  -- integers are multiples of `g`
  have mult : ∀ j : Int, (j : ℝ) = ((j * 2 ^ (53 - k) : Int) : ℝ) * g := by
    intro j
    rw [eg]
    push_cast
    have : (2 : ℝ) ^ (53 - k) * 2 ^ k = 2 ^ 53 := by rw [← pow_add]; congr 1; omega
    have e : (j : ℝ) * 2 ^ (53 - k) * (2 ^ k / 2 ^ 53) = j * ((2 : ℝ) ^ (53 - k) * 2 ^ k) / 2 ^ 53 := by ring
    rw [e, this]
    field_simp
  have below : ∀ j : Int, |(j : ℝ) - g| ≤ 2 ^ k → IsDouble ((j : ℝ) - g) := by
    intro j hj
    have e : (j : ℝ) - g = ((j * 2 ^ (53 - k) - 1 : Int) : ℝ) * g := by rw [mult j]; push_cast; ring
    rw [e] at hj ⊢
    refine isFloat_mul ?_ (by omega) (by norm_num)
    rw [abs_mul, abs_of_pos g0] at hj
    have : (2 : ℝ) ^ k = 2 ^ 53 * g := by rw [eg]; field_simp
    rw [this] at hj
    have := le_of_mul_le_mul_right hj g0
    exact_mod_cast this
  have gle : g ≤ n := by
    rw [eg, div_le_iff₀ (by positivity)]
    nlinarith
  have fy : IsDouble ((n : ℝ) - g) := below n (by rw [abs_le]; constructor <;> linarith)
  set x := (n : ℝ) - n / 2 ^ 53 with hx
  have xle : fl (r * n) ≤ fl x := by
    apply h.mono
    have : r * n ≤ (1 - 1 / 2 ^ 53) * n := mul_le_mul_of_nonneg_right hb npos.le
    rw [hx]
    linarith
  refine xle.trans ?_
  by_contra hc
  have hc := not_lt.1 (fun hh => hc (le_of_lt (lt_of_le_of_lt le_rfl hh)) : ¬ fl x < n - g)
  rename_i hc'
  have hc' := not_le.1 hc'
  -- `fl x` is a multiple of `g`
  have big : (2 : ℝ) ^ (((53 : Nat) : Int) - 1 + ((k : Int) - 53)) ≤ |fl x| := by
    have e : (2 : ℝ) ^ (((53 : Nat) : Int) - 1 + ((k : Int) - 53)) = 2 ^ k / 2 := by
      rw [show ((53 : Nat) : Int) - 1 + ((k : Int) - 53) = k - 1 by push_cast; ring, zpow_sub₀ (by norm_num), zpow_natCast]
      norm_num
    rw [e]
    refine le_trans ?_ (le_abs_self _)
    refine le_trans ?_ hc'.le
    -- both sides are multiples of `g`
    have i1 : (2 ^ k * 2 ^ (53 - k) : Int) < 2 * (n * 2 ^ (53 - k)) := by
      have : (0 : Int) < 2 ^ (53 - k) := by positivity
      nlinarith
    have i2 : (2 ^ k * 2 ^ (53 - k) : Int) = 2 ^ 53 := by rw [← pow_add]; congr 1; omega
    have i3 : (2 ^ 52 + 1 : Int) ≤ n * 2 ^ (53 - k) := by
      rw [i2] at i1
      omega
    have i4 : ((2 ^ 52 + 1 : Int) : ℝ) ≤ ((n * 2 ^ (53 - k) : Int) : ℝ) := by exact_mod_cast i3
    rw [mult n]
    have e2 : (2 : ℝ) ^ k = 2 ^ 53 * g := by rw [eg]; field_simp
    rw [e2]
    have := mul_le_mul_of_nonneg_right i4 g0.le
    push_cast at this ⊢
    linarith
  obtain ⟨m, hm⟩ := (h.float x).multiple big
  have mge : (n : ℝ) ≤ fl x := by
    rw [hm, ← hg] at hc' ⊢
    rw [mult n] at hc' ⊢
    have : ((n * 2 ^ (53 - k) : Int) : ℝ) - 1 < m := by
      have : (((n * 2 ^ (53 - k) : Int) : ℝ) - 1) * g < m * g := by linarith
      exact lt_of_mul_lt_mul_right this g0.le
    have : n * 2 ^ (53 - k) - 1 < m := by exact_mod_cast this
    have : n * 2 ^ (53 - k) ≤ m := by omega
    exact mul_le_mul_of_nonneg_right (by exact_mod_cast this) g0.le
  have near := h.near x _ fy
  have q1 : g / 2 < n / 2 ^ 53 := by rw [eg]; rw [div_div, div_lt_div_iff₀ (by positivity) (by positivity)]; nlinarith
  have q2 : (n : ℝ) / 2 ^ 53 ≤ g := by rw [eg]; exact div_le_div_of_nonneg_right n2 (by positivity)
  have q3 : (0 : ℝ) < n / 2 ^ 53 := by positivity
  have x1 : x ≤ fl x := by linarith
  have x2 : (n : ℝ) - g ≤ x := by linarith
  rw [abs_of_nonneg (by linarith), abs_of_nonpos (by linarith)] at near
  linarith

theorem int_grid {k : Nat} (hk : k ≤ 50) (j : Int) : (j : ℝ) = ((j * 2 ^ (53 - k) : Int) : ℝ) * 2 ^ ((k : Int) - 53) := by
  have eg : (2 : ℝ) ^ ((k : Int) - 53) = 2 ^ k / 2 ^ 53 := by
    rw [zpow_sub₀ (by norm_num), zpow_natCast]
    norm_num
  rw [eg]
  push_cast
  have : (2 : ℝ) ^ (53 - k) * 2 ^ k = 2 ^ 53 := by rw [← pow_add]; congr 1; omega
  have e : (j : ℝ) * 2 ^ (53 - k) * (2 ^ k / 2 ^ 53) = j * ((2 : ℝ) ^ (53 - k) * 2 ^ k) / 2 ^ 53 := by ring
  rw [e, this]
  field_simp

theorem grid_double {k : Nat} (hk : k ≤ 50) {j : Int} (hj : |(j : ℝ) - 2 ^ ((k : Int) - 53)| ≤ 2 ^ k) :
    IsDouble ((j : ℝ) - 2 ^ ((k : Int) - 53)) := by
  have g0 : (0 : ℝ) < 2 ^ ((k : Int) - 53) := by positivity
  have e : (j : ℝ) - 2 ^ ((k : Int) - 53) = ((j * 2 ^ (53 - k) - 1 : Int) : ℝ) * 2 ^ ((k : Int) - 53) := by
    have := int_grid hk j
    push_cast at this ⊢
    linarith
  rw [e] at hj ⊢
  refine isFloat_mul ?_ (by omega) (by norm_num)
  rw [abs_mul, abs_of_pos g0] at hj
  have : (2 : ℝ) ^ k = 2 ^ 53 * 2 ^ ((k : Int) - 53) := by
    rw [← zpow_natCast, ← zpow_natCast (2 : ℝ) 53, ← zpow_add₀ (by norm_num)]
    congr 1; push_cast; ring
  rw [this] at hj
  have := le_of_mul_le_mul_right hj g0
  exact_mod_cast this

theorem grid_small {k : Nat} (hk : k ≤ 50) : (2 : ℝ) ^ ((k : Int) - 53) ≤ 1 / 8 := by
  have : (2 : ℝ) ^ ((k : Int) - 53) ≤ 2 ^ (-3 : Int) := zpow_le_zpow_right₀ (by norm_num) (by omega)
  refine this.trans ?_
  norm_num

theorem int_double {k : Nat} (hk : k ≤ 51) {j : Int} (h1 : -2 ^ k ≤ j) (h2 : j ≤ 2 ^ k) : IsDouble (j : ℝ) := by
  apply double_int
  have : (2 : Int) ^ k ≤ 2 ^ 53 := pow_le_pow_right₀ (by norm_num) (by omega)
  rw [abs_le]
  omega

/-- **C125.** `floor(rng*n+lo)`: the index is in `lo .. lo+n-1` when `lo+n` does not exceed the power of two that follows `n`. -/
theorem C125_window (h : Double fl) {lo n : Int} {k : Nat} (hk : k ≤ 50) (hn1 : 2 ^ k < 2 * n) (hn2 : n ≤ 2 ^ k) (hlo : -2 ^ k ≤ lo)
    (hs : lo + n ≤ 2 ^ k) {r : ℝ} (hr : IsDouble r) (h0 : 0 ≤ r) (h1 : r < 1) :
    lo ≤ drawFrom fl lo n r ∧ drawFrom fl lo n r < lo + n := by
  have hp := product_below h hk hn1 hn2 hr h1
  have k0 : (0 : Int) < 2 ^ k := by positivity
  have n0 : (0 : ℝ) < n := by exact_mod_cast (by omega : 0 < n)
  have p0 : 0 ≤ fl (r * n) := h.nonneg (mul_nonneg h0 n0.le)
  have g0 : (0 : ℝ) < 2 ^ ((k : Int) - 53) := by positivity
  have g1 := grid_small hk
  have s1 : ((lo + n : Int) : ℝ) ≤ 2 ^ k := by exact_mod_cast hs
  have s0 : -(2 : ℝ) ^ k + 1 ≤ ((lo + n : Int) : ℝ) := by exact_mod_cast (by omega : -2 ^ k + 1 ≤ lo + n)
  have f := grid_double hk (j := lo + n) (by rw [abs_le]; constructor <;> linarith)
  unfold drawFrom
  rw [Int.le_floor, Int.floor_lt]
  constructor
  · exact h.ge_of (int_double (by omega) hlo (by omega)) (by linarith)
  · refine lt_of_le_of_lt (h.le_of f ?_) ?_
    · push_cast; linarith
    · linarith

theorem next_power {n : Int} (hn : 1 ≤ n) (hn2 : n ≤ 2 ^ 31) : ∃ k : Nat, k ≤ 31 ∧ 2 ^ k < 2 * n ∧ n ≤ 2 ^ k := by
  refine ⟨Nat.clog 2 n.toNat, ?_, ?_, ?_⟩
  · have : n.toNat ≤ 2 ^ 31 := by omega
    exact (Nat.clog_le_iff_le_pow (by norm_num)).2 this
  · rcases (by omega : n = 1 ∨ 2 ≤ n) with rfl | h2
    · norm_num
    · have := Nat.pow_pred_clog_lt_self (b := 2) (by norm_num) (x := n.toNat) (by omega)
      have pos : 0 < Nat.clog 2 n.toNat := Nat.clog_pos (by norm_num) (by omega)
      obtain ⟨m, hm⟩ : ∃ m, Nat.clog 2 n.toNat = m + 1 := ⟨_, (Nat.succ_pred_eq_of_pos pos).symm⟩
      rw [hm] at this ⊢
      simp only [Nat.pred_succ] at this
      have e : ((2 ^ m : Nat) : Int) < n := by omega
      push_cast at e
      rw [pow_succ]
      omega
  · have := Nat.le_pow_clog (b := 2) (by norm_num) n.toNat
    have e : (n.toNat : Int) ≤ ((2 ^ Nat.clog 2 n.toNat : Nat) : Int) := by exact_mod_cast this
    push_cast at e
    omega

/-- **C125.** `int(rng*n)`: for every rounding to nearest and every random number the index is one of `0 .. n-1`. -/
theorem C125_index (h : Double fl) {n : Int} (hn : 1 ≤ n) (hn2 : n ≤ 2 ^ 31) {r : ℝ} (hr : IsDouble r) (h0 : 0 ≤ r) (h1 : r < 1) :
    0 ≤ drawIndex fl n r ∧ drawIndex fl n r < n := by
  obtain ⟨k, hk, a, b⟩ := next_power hn hn2
  have k0 : (0 : Int) < 2 ^ k := by positivity
  have := C125_window h (lo := 0) (by omega) a b (by omega) (by omega) hr h0 h1
  unfold drawFrom at this
  rw [Int.cast_zero, add_zero, h.fix (h.float _)] at this
  unfold drawIndex
  omega

/-- **C125.** Charges: the offset drawn from `-d .. d` stays in that range. -/
theorem C125_charge (h : Double fl) {d : Int} (hd : 0 ≤ d) (hd2 : d ≤ 2 ^ 29) {r : ℝ} (hr : IsDouble r) (h0 : 0 ≤ r) (h1 : r < 1) :
    -d ≤ drawFrom fl (-d) (2 * d + 1) r ∧ drawFrom fl (-d) (2 * d + 1) r ≤ d := by
  obtain ⟨k, hk, a, b⟩ := next_power (n := 2 * d + 1) (by omega) (by omega)
  have := C125_window h (lo := -d) (by omega) a b (by omega) (by omega) hr h0 h1
  omega

/-- **C125.** Masses drawn from the window 50 .. 200 that the constructor sets stay in it. -/
theorem C125_mass (h : Double fl) {r : ℝ} (hr : IsDouble r) (h0 : 0 ≤ r) (h1 : r < 1) :
    50 ≤ drawFrom fl 50 (200 - 50 + 1) r ∧ drawFrom fl 50 (200 - 50 + 1) r ≤ 200 := by
  have := C125_window h (lo := 50) (n := 200 - 50 + 1) (k := 8) (by norm_num) (by norm_num) (by norm_num) (by norm_num) (by norm_num) hr h0 h1
  omega

/-- **C125.** For every other window the index may exceed it by one at most. -/
theorem C125_bounds (h : Double fl) {lo n : Int} (hn : 0 ≤ n) (hlo : |lo| ≤ 2 ^ 31) (hn2 : n ≤ 2 ^ 31) {r : ℝ} (h0 : 0 ≤ r) (h1 : r < 1) :
    lo ≤ drawFrom fl lo n r ∧ drawFrom fl lo n r ≤ lo + n := by
  rw [abs_le] at hlo
  have n0 : (0 : ℝ) ≤ n := by exact_mod_cast hn
  have p0 : 0 ≤ fl (r * n) := h.nonneg (mul_nonneg h0 n0)
  have p1 : fl (r * n) ≤ n := h.le_of (int_double (k := 31) (by norm_num) (by omega) hn2) (by nlinarith)
  have u : fl (fl (r * n) + lo) ≤ ((lo + n : Int) : ℝ) := h.le_of (int_double (k := 32) (by norm_num) (by omega) (by omega)) (by push_cast; linarith)
  unfold drawFrom
  rw [Int.le_floor]
  constructor
  · exact h.ge_of (int_double (k := 31) (by norm_num) (by omega) (by omega)) (by linarith)
  · rw [← Int.lt_add_one_iff, Int.floor_lt]
    refine lt_of_le_of_lt u ?_
    push_cast; linarith

/-- **C125, refuted for windows that start high.** With the largest random number below one, the index is `lo+n`, one past the
window, for every rounding to nearest, whenever `lo ≥ 3n`: the outer bin `kf` of a pre-fission neutron can be `kfmax`
(FissionFragments.cpp:5457). -/
theorem C125_overshoot (h : Double fl) {lo n : Int} (hn : 1 ≤ n) (hlo : 3 * n ≤ lo) (hlo2 : lo ≤ 2 ^ 31) :
    IsDouble (1 - 1 / 2 ^ 53 : ℝ) ∧ (1 - 1 / 2 ^ 53 : ℝ) < 1 ∧ drawFrom fl lo n (1 - 1 / 2 ^ 53) = lo + n := by
  have dr : IsDouble (1 - 1 / 2 ^ 53 : ℝ) := by
    refine ⟨2 ^ 53 - 1, -53, by norm_num, by norm_num, ?_⟩
    norm_num
  refine ⟨dr, by norm_num, ?_⟩
  obtain ⟨k, hk, a, b⟩ := next_power hn (by omega)
  have hb := C125_bounds h (lo := lo) (n := n) (r := 1 - 1 / 2 ^ 53) (by omega) (by rw [abs_of_nonneg (by omega)]; exact hlo2) (by omega)
    (by norm_num) (by norm_num)
  refine le_antisymm hb.2 ?_
  have k0 : (0 : Int) < 2 ^ k := by positivity
  set g : ℝ := 2 ^ ((k : Int) - 53) with hg
  have g0 : 0 < g := by positivity
  have g1 : g ≤ 1 / 8 := grid_small (by omega)
  have eg : (2 : ℝ) ^ k = 2 ^ 53 * g := by
    rw [hg, ← zpow_natCast, ← zpow_natCast (2 : ℝ) 53, ← zpow_add₀ (by norm_num)]
    congr 1; push_cast; ring
  have n1 : (1 : ℝ) ≤ n := by exact_mod_cast hn
  have n2 : (n : ℝ) ≤ 2 ^ k := by exact_mod_cast b
  have y1 : (n : ℝ) - g ≤ fl ((1 - 1 / 2 ^ 53) * n) := by
    refine h.ge_of (grid_double (by omega) ?_) ?_
    · rw [← hg, abs_le]; constructor <;> linarith
    · have : (1 - 1 / 2 ^ 53 : ℝ) * n = n - n / 2 ^ 53 := by ring
      rw [this]
      have : (n : ℝ) / 2 ^ 53 ≤ g := by rw [div_le_iff₀ (by positivity)]; linarith
      linarith
  set y := fl ((1 - 1 / 2 ^ 53) * (n : ℝ)) with hy
  have y2 : y ≤ n := h.le_of (int_double (k := 31) (by norm_num) (by omega) (by omega)) (by
    have : (1 - 1 / 2 ^ 53 : ℝ) * n = n - n / 2 ^ 53 := by ring
    have : 0 ≤ (n : ℝ) / 2 ^ 53 := by positivity
    linarith)
  have fs : IsDouble ((lo + n : Int) : ℝ) := int_double (k := 32) (by norm_num) (by omega) (by omega)
  have near := h.near (y + lo) _ fs
  have dist : |((lo + n : Int) : ℝ) - (y + lo)| ≤ g := by
    push_cast
    rw [abs_le]; constructor <;> linarith
  have near := abs_le.1 (near.trans dist)
  have z1 : ((lo + n : Int) : ℝ) - 2 * g ≤ fl (y + lo) := by push_cast; linarith [near.1]
  have big : (2 * 2 ^ k : ℝ) + 1 ≤ ((lo + n : Int) : ℝ) := by exact_mod_cast (by omega : 2 * 2 ^ k + 1 ≤ lo + n)
  have e4 : (2 : ℝ) ^ ((k : Int) - 53 + 2) = 4 * g := by rw [zpow_add₀ (by norm_num), ← hg]; norm_num; ring
  obtain ⟨m, hm⟩ := (h.float (y + lo)).multiple (e := (k : Int) - 53 + 2) (by
    have e : (2 : ℝ) ^ (((53 : Nat) : Int) - 1 + ((k : Int) - 53 + 2)) = 2 * 2 ^ k := by
      rw [show ((53 : Nat) : Int) - 1 + ((k : Int) - 53 + 2) = k + 1 by push_cast; ring, zpow_add₀ (by norm_num), zpow_natCast]
      norm_num; ring
    rw [e]
    refine le_trans ?_ (le_abs_self _)
    linarith)
  rw [e4] at hm
  have es : ((lo + n : Int) : ℝ) = (((lo + n) * 2 ^ (51 - k) : Int) : ℝ) * (4 * g) := by
    have := int_grid (k := k) (by omega) (lo + n)
    rw [← hg] at this
    rw [this]
    have e : (2 : Int) ^ (53 - k) = 4 * 2 ^ (51 - k) := by
      rw [show 53 - k = (51 - k) + 2 by omega, pow_add]; ring
    rw [e]
    push_cast
    ring
  have : (lo + n) * 2 ^ (51 - k) ≤ m := by
    rw [hm, es] at z1
    have : ((((lo + n) * 2 ^ (51 - k) : Int) : ℝ) - 1) * (4 * g) < m * (4 * g) := by linarith
    have := lt_of_mul_lt_mul_right this (by positivity)
    have : (lo + n) * 2 ^ (51 - k) - 1 < m := by exact_mod_cast this
    omega
  have fin : ((lo + n : Int) : ℝ) ≤ fl (y + lo) := by
    rw [hm, es]
    exact mul_le_mul_of_nonneg_right (by exact_mod_cast this) (by positivity)
  unfold drawFrom
  exact Int.le_floor.2 fin

/-- A window of seven bins that starts at the hundredth, and a spin table of twenty entries. -/
example : ∃ fl, Double fl ∧ drawFrom fl 100 7 (1 - 1 / 2 ^ 53) = 107 ∧ 0 ≤ drawIndex fl 20 (1 - 1 / 2 ^ 53) ∧ drawIndex fl 20 (1 - 1 / 2 ^ 53) < 20 := by
  have h : Double (roundTo 53 (-1074)) := nearest_roundTo (by norm_num)
  have o := C125_overshoot h (lo := 100) (n := 7) (by norm_num) (by norm_num) (by norm_num)
  exact ⟨_, h, o.2.2, C125_index h (by norm_num) (by norm_num) o.1 (by norm_num) o.2.1⟩

end CGMF.Props

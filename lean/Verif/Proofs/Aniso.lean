import Verif.Tactics
import Mathlib.Algebra.Order.Field.Power
import Verif.Model.Aniso

/-! # Error of the floating point roundings used by the anisotropy lookup -/

namespace CGMF.Aniso

open CGMF.Text (roundHE)

/-- Rounding to the nearest integer moves a number by at most one half. -/
theorem roundHE_err (x : ℚ) : |(roundHE x : ℚ) - x| ≤ 1 / 2 := by
  have h1 := Int.floor_le x
  have h2 := Int.lt_floor_add_one x
  unfold roundHE
  simp only
  split_ifs <;> rw [abs_le] <;> push_cast <;> constructor <;> linarith

/-- The exponent of a positive number. -/
theorem expo_spec {x : ℚ} (hx : 0 < x) : (2 : ℚ) ^ expo x ≤ x ∧ x < 2 ^ (expo x + 1) := by
  have hn : 0 < x.num := Rat.num_pos.mpr hx
  have hn' : x.num.natAbs ≠ 0 := by omega
  have a1 : (2 : ℚ) ^ (Nat.log2 x.num.natAbs : Int) ≤ x.num := by
    have h := Nat.log2_self_le hn'
    rw [zpow_natCast]
    have e : (x.num.natAbs : ℚ) = (x.num : ℚ) := by
      rw [← Int.cast_natCast, Int.natAbs_of_nonneg hn.le]
    rw [← e]; exact_mod_cast h
  have a2 : (x.num : ℚ) < 2 ^ ((Nat.log2 x.num.natAbs : Int) + 1) := by
    have h := Nat.lt_log2_self (n := x.num.natAbs)
    have e : (x.num.natAbs : ℚ) = (x.num : ℚ) := by
      rw [← Int.cast_natCast, Int.natAbs_of_nonneg hn.le]
    rw [← e, show ((Nat.log2 x.num.natAbs : Int) + 1) = ((Nat.log2 x.num.natAbs + 1 : ℕ) : Int) by push_cast; rfl,
      zpow_natCast]
    exact_mod_cast h
  have hd : x.den ≠ 0 := x.den_nz
  have d1 : (2 : ℚ) ^ (Nat.log2 x.den : Int) ≤ x.den := by
    have h := Nat.log2_self_le hd
    rw [zpow_natCast]; exact_mod_cast h
  have d2 : (x.den : ℚ) < 2 ^ ((Nat.log2 x.den : Int) + 1) := by
    have h := Nat.lt_log2_self (n := x.den)
    rw [show ((Nat.log2 x.den : Int) + 1) = ((Nat.log2 x.den + 1 : ℕ) : Int) by push_cast; rfl, zpow_natCast]
    exact_mod_cast h
  have hdp : (0 : ℚ) < x.den := by exact_mod_cast Nat.pos_of_ne_zero hd
  have hxe : x * x.den = x.num := Rat.mul_den_eq_num x
  set a : Int := (Nat.log2 x.num.natAbs : Int) with ha
  set b : Int := (Nat.log2 x.den : Int) with hb
  -- x < 2^(a-b+1) and 2^(a-b-1) < x
  have up : x < 2 ^ (a - b + 1) := by
    have hb2 : (0 : ℚ) < 2 ^ b := by positivity
    have : x * 2 ^ b < 2 ^ (a - b + 1) * 2 ^ b := by
      rw [← zpow_add₀ (by norm_num), show a - b + 1 + b = a + 1 by ring]
      calc x * 2 ^ b ≤ x * x.den := by exact mul_le_mul_of_nonneg_left d1 hx.le
        _ = x.num := hxe
        _ < _ := a2
    exact lt_of_mul_lt_mul_right this hb2.le
  have lo : 2 ^ (a - b - 1) ≤ x := by
    have hb2 : (0 : ℚ) < 2 ^ (b + 1) := by positivity
    have : (2 : ℚ) ^ (a - b - 1) * 2 ^ (b + 1) ≤ x * 2 ^ (b + 1) := by
      rw [← zpow_add₀ (by norm_num), show a - b - 1 + (b + 1) = a by ring]
      calc (2 : ℚ) ^ a ≤ x.num := a1
        _ = x * x.den := hxe.symm
        _ ≤ _ := mul_le_mul_of_nonneg_left d2.le hx.le
    exact le_of_mul_le_mul_right this hb2
  unfold expo
  simp only [← ha, ← hb]
  split_ifs with h
  · exact ⟨h, up⟩
  · refine ⟨lo, ?_⟩
    rw [show a - b - 1 + 1 = a - b by ring]
    exact not_le.mp h

/-- Relative error of rounding to `p` bits. -/
theorem fl_err (p : Nat) {x : ℚ} (hx : 0 ≤ x) : |fl p x - x| ≤ x / 2 ^ p := by
  rcases eq_or_lt_of_le hx with rfl | hx
  · simp [fl]
  · unfold fl
    rw [if_neg hx.ne']
    set u : ℚ := 2 ^ (expo x - (p - 1 : Int)) with hu
    have hup : 0 < u := by positivity
    have e1 : (roundHE (x / u) : ℚ) * u - x = ((roundHE (x / u) : ℚ) - x / u) * u := by
      field_simp
    rw [e1, abs_mul, abs_of_pos hup]
    have h1 := roundHE_err (x / u)
    have h2 : u = 2 ^ expo x * 2 / 2 ^ p := by
      rw [hu, show expo x - ((p : Int) - 1) = expo x + 1 - (p : Int) by ring, zpow_sub₀ (by norm_num), zpow_add₀ (by norm_num),
        zpow_natCast]
      norm_num
    have h3 := (expo_spec hx).1
    have hp : (0 : ℚ) < 2 ^ p := by positivity
    calc |(roundHE (x / u) : ℚ) - x / u| * u ≤ 1 / 2 * u := mul_le_mul_of_nonneg_right h1 hup.le
      _ = 2 ^ expo x / 2 ^ p := by rw [h2]; ring
      _ ≤ x / 2 ^ p := div_le_div_of_nonneg_right h3 hp.le

/-- Energies within 0.049 MeV of a multiple of 0.1 MeV up to 20 MeV are rounded to that multiple. -/
theorem tenths_eq {e : ℚ} {k : Nat} (he : 0 ≤ e) (hk : k ≤ 200) (h : |10 * e - k| ≤ 49 / 100) : tenths e = k := by
  have hk' : (k : ℚ) ≤ 200 := by exact_mod_cast hk
  rw [abs_le] at h
  have h1 := fl_err 53 (x := e * 10) (by positivity)
  have b1 : e * 10 ≤ 201 := by linarith
  have n1 : (0 : ℚ) ≤ f64 (e * 10) := by
    have := (abs_le.mp h1).1
    have : e * 10 / 2 ^ 53 ≤ e * 10 := div_le_self (by positivity) (by norm_num)
    unfold f64; linarith
  have h2 := fl_err 24 n1
  rw [abs_le] at h1 h2
  have c1 : e * 10 / 2 ^ 53 ≤ 1 / 1000 := by
    rw [div_le_iff₀ (by positivity)]; norm_num; linarith
  have d1 : f64 (e * 10) ≤ 202 := by unfold f64; linarith [h1.2]
  have c2 : f64 (e * 10) / 2 ^ 24 ≤ 1 / 1000 := by
    rw [div_le_iff₀ (by positivity)]; norm_num; linarith
  unfold tenths roundf f32
  rw [Int.floor_eq_iff]
  have e1 : f64 (e * 10) = fl 53 (e * 10) := rfl
  push_cast
  constructor <;> linarith [h1.1, h1.2, h2.1, h2.2]

/-- The grid of the shipped table: a key is found only at multiples of 0.5 MeV. -/
theorem find_tenths : ∀ k ∈ List.range 201,
    findEnergy (f64 (1 / 10)) (f32 (((k : Nat) : ℚ) / 10)) 201 = if 5 ∣ k then some k else none := by
  decide +kernel

end CGMF.Aniso

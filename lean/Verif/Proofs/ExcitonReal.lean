import Verif.Proofs.ExcitonRates
import Mathlib.Analysis.SpecialFunctions.Pow.Real

/-! The real `exp` and `pow`, and the sign of the pairing correction. -/

namespace CGMF.Exc

open CGMF.ExcSpec

/-- The functions of libm over the reals. -/
noncomputable def realFns : Fns ℝ := ⟨Real.exp, fun x y => x ^ y⟩

theorem libM_real : LibM realFns where
  exp_pos := Real.exp_pos
  exp_zero := Real.exp_zero
  pow_nonneg := fun _ y h => Real.rpow_nonneg h y
  pow_le_one := fun _ _ h0 h1 hy => Real.rpow_le_one h0 h1 hy
  zero_pow := fun _ h => Real.zero_rpow (ne_of_gt h)

/-- The subtracted term of the pairing correction is at most 1.996. -/
theorem pairing_term (y r : ℝ) (hy : 0 ≤ y) (hy' : y ≤ 256)
    (hr : 716 / 1000 + 244 / 100 * y ^ (217 / 100 : ℝ) ≤ r) :
    176 / 100 * y ^ (16 / 10 : ℝ) * r ^ (-(68 / 100) : ℝ) ≤ 1996 / 1000 := by
  rcases eq_or_lt_of_le hy with h0 | h0
  · rw [← h0, Real.zero_rpow (by norm_num)]; norm_num
  · have hp : 0 < y ^ (217 / 100 : ℝ) := Real.rpow_pos_of_pos h0 _
    have hr' : 244 / 100 * y ^ (217 / 100 : ℝ) ≤ r := by linarith
    have h1 : r ^ (-(68 / 100) : ℝ) ≤ (244 / 100 * y ^ (217 / 100 : ℝ)) ^ (-(68 / 100) : ℝ) :=
      Real.rpow_le_rpow_of_nonpos (by positivity) hr' (by norm_num)
    have h2 : (244 / 100 * y ^ (217 / 100 : ℝ)) ^ (-(68 / 100) : ℝ)
        = (244 / 100 : ℝ) ^ (-(68 / 100) : ℝ) * y ^ (-(217 * 68 / 10000) : ℝ) := by
      rw [Real.mul_rpow (by norm_num) hp.le, ← Real.rpow_mul h0.le]; norm_num
    have h3 : y ^ (16 / 10 : ℝ) * y ^ (-(217 * 68 / 10000) : ℝ) = y ^ (1244 / 10000 : ℝ) := by
      rw [← Real.rpow_add h0]; norm_num
    have h4 : y ^ (1244 / 10000 : ℝ) ≤ 2 := by
      rcases le_total y 1 with g | g
      · exact le_trans (Real.rpow_le_one h0.le g (by norm_num)) (by norm_num)
      · calc y ^ (1244 / 10000 : ℝ) ≤ y ^ (1 / 8 : ℝ) := Real.rpow_le_rpow_of_exponent_le g (by norm_num)
          _ ≤ (256 : ℝ) ^ (1 / 8 : ℝ) := Real.rpow_le_rpow h0.le hy' (by norm_num)
          _ = 2 := by
            rw [show (256 : ℝ) = (2 : ℝ) ^ (8 : ℝ) by norm_num, ← Real.rpow_mul (by norm_num)]; norm_num
    have h5 : (244 / 100 : ℝ) ^ (-(68 / 100) : ℝ) ≤ 100 / 181 := by
      have a1 : (181 / 100 : ℝ) ≤ (244 / 100 : ℝ) ^ (68 / 100 : ℝ) := by
        calc (181 / 100 : ℝ) = ((181 / 100 : ℝ) ^ (3 : ℝ)) ^ (1 / 3 : ℝ) := by
              rw [← Real.rpow_mul (by norm_num)]; norm_num
          _ ≤ ((244 / 100 : ℝ) ^ (2 : ℝ)) ^ (1 / 3 : ℝ) := by
              refine Real.rpow_le_rpow (by positivity) ?_ (by norm_num)
              norm_num
          _ = (244 / 100 : ℝ) ^ (2 / 3 : ℝ) := by rw [← Real.rpow_mul (by norm_num)]; norm_num
          _ ≤ (244 / 100 : ℝ) ^ (68 / 100 : ℝ) := Real.rpow_le_rpow_of_exponent_le (by norm_num) (by norm_num)
      rw [Real.rpow_neg (by norm_num), inv_le_comm₀ (by positivity) (by norm_num)]
      norm_num at a1 ⊢
      exact a1
    have h6 : 0 < y ^ (16 / 10 : ℝ) := Real.rpow_pos_of_pos h0 _
    have h7 : 0 < y ^ (1244 / 10000 : ℝ) := Real.rpow_pos_of_pos h0 _
    calc 176 / 100 * y ^ (16 / 10 : ℝ) * r ^ (-(68 / 100) : ℝ)
        ≤ 176 / 100 * y ^ (16 / 10 : ℝ) * ((244 / 100 : ℝ) ^ (-(68 / 100) : ℝ) * y ^ (-(217 * 68 / 10000) : ℝ)) := by
          rw [← h2]; exact mul_le_mul_of_nonneg_left h1 (by positivity)
      _ = 176 / 100 * (244 / 100 : ℝ) ^ (-(68 / 100) : ℝ) * (y ^ (16 / 10 : ℝ) * y ^ (-(217 * 68 / 10000) : ℝ)) := by ring
      _ = 176 / 100 * (244 / 100 : ℝ) ^ (-(68 / 100) : ℝ) * y ^ (1244 / 10000 : ℝ) := by rw [h3]
      _ ≤ 176 / 100 * (100 / 181) * 2 := by
          refine mul_le_mul (mul_le_mul_of_nonneg_left h5 (by norm_num)) h4 h7.le (by norm_num)
      _ ≤ 1996 / 1000 := by norm_num

/-- The pairing correction lies between zero and the pairing energy. -/
theorem pairingCorr_range (nc : ℝ) (n : Int) (hn : 0 ≤ n) (hnc : 0 < nc) (hc : (n : ℝ) ≤ 256 * nc) (ex : ℝ) (hx : 0 < ex)
    (p : SPdens ℝ) (hp : 0 ≤ p.pairing) :
    0 ≤ pairingCorr realFns nc n ex p ∧ pairingCorr realFns nc n ex p ≤ p.pairing := by
  unfold pairingCorr
  simp only []
  split
  · rename_i h; rw [h]; exact ⟨le_rfl, le_rfl⟩
  · split
    · rename_i h0 h
      have hy : 0 ≤ (n : ℝ) / nc := div_nonneg (by exact_mod_cast hn) hnc.le
      have hy' : (n : ℝ) / nc ≤ 256 := (div_le_iff₀ hnc).2 hc
      have t := pairing_term _ _ hy hy' h
      have hr : 0 ≤ ex / p.pairing := div_nonneg hx.le hp
      have t0 : 0 ≤ 176 / 100 * ((n : ℝ) / nc) ^ (16 / 10 : ℝ) * (ex / p.pairing) ^ (-(68 / 100) : ℝ) := by
        have := Real.rpow_nonneg hy (16 / 10 : ℝ)
        have := Real.rpow_nonneg hr (-(68 / 100) : ℝ)
        positivity
      show 0 ≤ p.pairing * (1 - (996 / 1000 - 176 / 100 * ((n : ℝ) / nc) ^ (16 / 10 : ℝ) * (ex / p.pairing) ^ (-(68 / 100) : ℝ))
          * (996 / 1000 - 176 / 100 * ((n : ℝ) / nc) ^ (16 / 10 : ℝ) * (ex / p.pairing) ^ (-(68 / 100) : ℝ))) ∧
        p.pairing * (1 - (996 / 1000 - 176 / 100 * ((n : ℝ) / nc) ^ (16 / 10 : ℝ) * (ex / p.pairing) ^ (-(68 / 100) : ℝ))
          * (996 / 1000 - 176 / 100 * ((n : ℝ) / nc) ^ (16 / 10 : ℝ) * (ex / p.pairing) ^ (-(68 / 100) : ℝ))) ≤ p.pairing
      generalize 176 / 100 * ((n : ℝ) / nc) ^ (16 / 10 : ℝ) * (ex / p.pairing) ^ (-(68 / 100) : ℝ) = z at t t0
      constructor
      · refine mul_nonneg hp ?_
        nlinarith
      · have : 0 ≤ (996 / 1000 - z) * (996 / 1000 - z) := mul_self_nonneg _
        nlinarith
    · exact ⟨hp, le_rfl⟩

/-- A composite system exists for every choice of parameters. -/
theorem composite_exists {K : Type} [Field K] [LinearOrder K] [IsStrictOrderedRing K] (F : Fns K) (pc : Int → K → K)
    (spd : SPdens K) (E czz cnn czn cnz : K) (h1 : 0 ≤ czz) (h2 : 0 ≤ cnn) (h3 : 0 ≤ czn) (h4 : 0 ≤ cnz)
    (i j : Nat) (hi : i < 6) (hj : j < 6) :
    ∃ q, Composite F pc spd E q i j ∧ q.czz = czz ∧ q.cnn = cnn ∧ q.czn = czn ∧ q.cnz = cnz := by
  classical
  obtain ⟨t, ht⟩ := stateDensity_ok F pc spd E (confAt i j) (small_confAt hi hj)
  refine ⟨⟨E, fun x e => if h : InTable e then Classical.choose (stateDensity_ok F pc spd x e h) else 0,
    pauli spd.gz spd.gn, t, czz, cnn, czn, cnz⟩, ⟨rfl, ?_, fun e => rfl, ht, h1, h2, h3, h4⟩, rfl, rfl, rfl, rfl⟩
  intro x e he
  show _ = Res.ok (if h : InTable e then Classical.choose (stateDensity_ok F pc spd x e h) else 0)
  rw [dif_pos he]
  exact Classical.choose_spec (stateDensity_ok F pc spd x e he)

end CGMF.Exc

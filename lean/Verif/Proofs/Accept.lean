import Verif.Tactics
import Mathlib.MeasureTheory.Measure.Lebesgue.Basic
import Mathlib.Algebra.Order.Floor.Ring

/-! # Probability that one attempt of a rejection sampler accepts a given value -/

namespace CGMF.Accept

open MeasureTheory

/-- Pairs of random numbers for which an attempt proposes `lo + n` out of `N` values and accepts it, where
the acceptance test is `r2 * M <= p`. -/
def region (lo n : Int) (N : Nat) (M p : ℝ) : Set (ℝ × ℝ) :=
  {x | (0 ≤ x.1 ∧ x.1 < 1) ∧ (0 ≤ x.2 ∧ x.2 < 1) ∧ ⌊x.1 * (N : ℝ) + (lo : ℝ)⌋ = lo + n ∧ x.2 * M ≤ p}

theorem vol_prop (n : Int) (N : Nat) (lo : Int) (h0 : 0 ≤ n) (hn : n < N) :
    {x : ℝ | (0 ≤ x ∧ x < 1) ∧ ⌊x * (N : ℝ) + (lo : ℝ)⌋ = lo + n} = Set.Ico ((n : ℝ) / N) (((n : ℝ) + 1) / N) := by
  have hN : (0 : ℝ) < N := by
    have : (0 : Int) < N := by omega
    exact_mod_cast this
  have h0' : (0 : ℝ) ≤ n := by exact_mod_cast h0
  have hn' : (n : ℝ) + 1 ≤ N := by exact_mod_cast hn
  ext x
  simp only [Set.mem_setOf_eq, Set.mem_Ico]
  rw [Int.floor_add_intCast, div_le_iff₀ hN, lt_div_iff₀ hN]
  constructor
  · rintro ⟨_, h⟩
    have h : ⌊x * (N : ℝ)⌋ = n := by omega
    rw [Int.floor_eq_iff] at h
    exact h
  · rintro ⟨h1, h2⟩
    refine ⟨⟨?_, ?_⟩, ?_⟩
    · by_contra hc
      rw [not_le] at hc
      nlinarith
    · by_contra hc
      rw [not_lt] at hc
      nlinarith
    · have : ⌊x * (N : ℝ)⌋ = n := Int.floor_eq_iff.mpr ⟨h1, h2⟩
      omega

theorem vol_acc (M p : ℝ) (hM : 0 < M) (hp : 0 ≤ p) :
    volume {x : ℝ | (0 ≤ x ∧ x < 1) ∧ x * M ≤ p} = ENNReal.ofReal (min 1 (p / M)) := by
  have hq : 0 ≤ p / M := div_nonneg hp hM.le
  apply le_antisymm
  · calc volume {x : ℝ | (0 ≤ x ∧ x < 1) ∧ x * M ≤ p} ≤ volume (Set.Icc (0 : ℝ) (min 1 (p / M))) := by
          apply measure_mono
          rintro x ⟨⟨h0, h1⟩, h2⟩
          exact ⟨h0, le_min h1.le ((le_div_iff₀ hM).mpr h2)⟩
      _ = _ := by rw [Real.volume_Icc, sub_zero]
  · calc ENNReal.ofReal (min 1 (p / M)) = volume (Set.Ico (0 : ℝ) (min 1 (p / M))) := by
          rw [Real.volume_Ico, sub_zero]
      _ ≤ _ := by
          apply measure_mono
          rintro x ⟨h0, h1⟩
          refine ⟨⟨h0, h1.trans_le (min_le_left _ _)⟩, ?_⟩
          exact (le_div_iff₀ hM).mp (h1.le.trans (min_le_right _ _))

theorem volume_region (lo n : Int) (N : Nat) (M p : ℝ) (h0 : 0 ≤ n) (hn : n < N) (hM : 0 < M) (hp : 0 ≤ p) :
    volume (region lo n N M p) = ENNReal.ofReal (1 / N * min 1 (p / M)) := by
  have hN : (0 : ℝ) < N := by
    have : (0 : Int) < N := by omega
    exact_mod_cast this
  have : region lo n N M p = {x : ℝ | (0 ≤ x ∧ x < 1) ∧ ⌊x * (N : ℝ) + (lo : ℝ)⌋ = lo + n} ×ˢ
      {x : ℝ | (0 ≤ x ∧ x < 1) ∧ x * M ≤ p} := by
    ext ⟨a, b⟩
    simp only [region, Set.mem_setOf_eq, Set.mem_prod]
    tauto
  rw [this, Measure.volume_eq_prod, Measure.prod_prod, vol_prop n N lo h0 hn, vol_acc M p hM hp, Real.volume_Ico,
    ← ENNReal.ofReal_mul]
  · congr 1
    field_simp
    ring
  · rw [sub_nonneg]
    exact div_le_div_of_nonneg_right (by linarith) hN.le

end CGMF.Accept

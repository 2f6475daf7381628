import Verif.Props.FloatSum
import Verif.Props.FloatPick

/-!
# C126, continued: the chances of the choices by running sums

`chance` (`Props/FloatPick.lean`) is the share of the outputs of the engine for which something happens.
-/

namespace CGMF.Props

open CGMF CGMF.Fp CGMF.Twist CGMF.Pick

variable {fl : ℝ → ℝ}

theorem rng_zero_first {i : Nat} {l : List ℝ} (h : Double fl) (hl : ∀ p ∈ l, 0 ≤ p) (hp : pickSum fl 0 0 l = some i) : i = 0 := by
  cases l with
  | nil => simp [pickSum] at hp
  | cons p t =>
    rw [pickSum, if_pos (h.nonneg (by linarith [hl p (by simp)]))] at hp
    exact (Option.some.inj hp).symm

/-- **C126.** The next state of a decay, a photon of a level or the initial spin and parity: entry `i` is chosen with the chance of its
weight, up to `(i+3)/2^50` and the excess of the total weight over one. -/
theorem C126_chance (h : Double fl) {l : List ℝ} (hl : ∀ p ∈ l, 0 ≤ p) (hlen : l.length ≤ 2 ^ 40) (hsum : l.sum ≤ 5 / 4) {i : Nat} (hi : i < l.length) :
    |chance (fun w => pickSum fl 0 (rng fl w) l = some i) - l[i]| ≤ (i + 3) / 2 ^ 50 + max 0 (l.sum - 1) := by
  obtain ⟨A, B, eA, eB, iff⟩ := C126_interval h hl hlen hsum hi
  set a := (l.take i).sum with ha
  set b := (l.take (i + 1)).sum with hb
  have a0 : 0 ≤ a := List.sum_nonneg fun p hp => hl p (List.mem_of_mem_take hp)
  have p0 := hl _ (List.getElem_mem hi)
  have ab : b = a + l[i] := by
    rw [ha, hb, List.take_succ_eq_append_getElem hi, List.sum_append, List.sum_singleton]
  have bs : b ≤ l.sum := by
    have := List.sum_take_add_sum_drop l (i + 1)
    have : 0 ≤ (l.drop (i + 1)).sum := List.sum_nonneg fun p hp => hl p (List.mem_of_mem_drop hp)
    linarith
  have i0 : (0 : ℝ) ≤ i := Nat.cast_nonneg i
  have eA := abs_le.1 eA
  have eB := abs_le.1 eB
  have key := chance_interval (E := fun w => pickSum fl 0 (rng fl w) l = some i) (a := min 1 a) (b := min 1 b) (ε := (i + 2) / 2 ^ 51)
    (by positivity) (min_le_min_left _ (by linarith)) (min_le_left _ _) (by positivity) ?_ ?_
  · have clip : |min 1 b - min 1 a - l[i]| ≤ max 0 (l.sum - 1) := by
      rcases le_total 1 b with h1 | h1 <;> rcases le_total 1 a with h2 | h2 <;> simp only [min_eq_left, min_eq_right, h1, h2]
      · rw [sub_self, zero_sub, abs_neg, abs_of_nonneg p0]
        exact le_max_of_le_right (by linarith)
      · rw [abs_le]
        constructor
        · have := le_max_right 0 (l.sum - 1); linarith
        · have := le_max_left 0 (l.sum - 1); linarith
      · rw [abs_le]
        constructor
        · have := le_max_right 0 (l.sum - 1); linarith
        · have := le_max_left 0 (l.sum - 1); linarith
      · rw [ab, add_sub_cancel_left, sub_self, abs_zero]
        exact le_max_left _ _
    have r : chance (fun w => pickSum fl 0 (rng fl w) l = some i) - l[i]
        = (chance (fun w => pickSum fl 0 (rng fl w) l = some i) - (min 1 b - min 1 a)) + (min 1 b - min 1 a - l[i]) := by ring
    rw [r]
    refine (abs_add_le _ _).trans (add_le_add (key.trans ?_) clip)
    norm_num
    linarith
  · intro w hw
    have near := abs_le.1 (rng_near h w)
    have v1 : (value w : ℝ) / 2 ^ 64 ≤ 1 := by
      rw [div_le_one (by positivity)]
      exact_mod_cast (value_lt w).le
    have v0 : (0 : ℝ) ≤ (value w : ℝ) / 2 ^ 64 := by positivity
    generalize (value w : ℝ) / 2 ^ 64 = v at *
    rcases (rng_range h w).2.1.lt_or_eq with r0 | r0
    · obtain ⟨x, y⟩ := (iff _ r0).1 hw
      constructor
      · refine le_trans (sub_le_sub_right (min_le_right 1 a) _) ?_
        norm_num at *
        linarith [near.2, eA.1]
      · rcases le_total 1 b with h1 | h1
        · rw [min_eq_left h1]
          have : 0 ≤ ((i : ℝ) + 2) / 2 ^ 51 := by positivity
          linarith
        · rw [min_eq_right h1]
          norm_num at *
          linarith [near.1, eB.2]
    · rw [← r0] at hw near
      have i00 := rng_zero_first h hl hw
      subst i00
      have az : a = 0 := by simp [ha]
      rw [az]
      norm_num at *
      have m0 : 0 ≤ min 1 b := le_min zero_le_one (by linarith)
      constructor <;> linarith [near.1]
  · intro w w1 w2
    have near := abs_le.1 (rng_near h w)
    have v1 : (value w : ℝ) / 2 ^ 64 ≤ 1 := by
      rw [div_le_one (by positivity)]
      exact_mod_cast (value_lt w).le
    generalize (value w : ℝ) / 2 ^ 64 = v at *
    have ε0 : 0 ≤ ((i : ℝ) + 2) / 2 ^ 51 := by positivity
    have ha1 : a ≤ 1 := by
      by_contra hc
      rw [min_eq_left (not_le.1 hc).le] at w1
      linarith
    rw [min_eq_right ha1] at w1
    have w2 := lt_of_lt_of_le w2 (sub_le_sub_right (min_le_right 1 b) _)
    refine (iff _ ?_).2 ⟨?_, ?_⟩
    · norm_num at *
      linarith [near.1]
    · norm_num at *
      linarith [near.1, eA.2]
    · norm_num at *
      linarith [near.2, eB.1]

/-- **C126.** The loops end without a choice with the chance by which the total weight falls short of one, up to `(n+3)/2^50` for `n` entries. -/
theorem C126_chance_none (h : Double fl) {l : List ℝ} (hl : ∀ p ∈ l, 0 ≤ p) (hlen : l.length ≤ 2 ^ 40) (hsum : l.sum ≤ 5 / 4) :
    |chance (fun w => pickSum fl 0 (rng fl w) l = none) - max 0 (1 - l.sum)| ≤ (l.length + 3) / 2 ^ 50 := by
  have err := abs_le.1 (runSum_error h hl hlen hsum l.length le_rfl)
  rw [List.take_length] at err
  have s0 : 0 ≤ l.sum := List.sum_nonneg hl
  have n0 : (0 : ℝ) ≤ l.length := Nat.cast_nonneg _
  have key := chance_interval (E := fun w => pickSum fl 0 (rng fl w) l = none) (a := min 1 l.sum) (b := 1) (ε := (l.length + 2) / 2 ^ 51)
    (by positivity) (min_le_left _ _) le_rfl (by positivity) ?_ ?_
  · have e : (1 : ℝ) - min 1 l.sum = max 0 (1 - l.sum) := by
      rcases le_total 1 l.sum with h1 | h1
      · rw [min_eq_left h1, max_eq_left (by linarith), sub_self]
      · rw [min_eq_right h1, max_eq_right (by linarith)]
    rw [e] at key
    refine key.trans ?_
    norm_num
    linarith
  · intro w hw
    have near := abs_le.1 (rng_near h w)
    have v1 : (value w : ℝ) / 2 ^ 64 ≤ 1 := by
      rw [div_le_one (by positivity)]
      exact_mod_cast (value_lt w).le
    have ε0 : 0 ≤ ((l.length : ℝ) + 2) / 2 ^ 51 := by positivity
    refine ⟨?_, by linarith⟩
    generalize (value w : ℝ) / 2 ^ 64 = v at *
    rcases (rng_range h w).2.1.lt_or_eq with r0 | r0
    · have := (pickSum_none h isFloat_zero r0 hl).1 hw
      refine le_trans (sub_le_sub_right (min_le_right 1 l.sum) _) ?_
      norm_num at *
      linarith [near.2, err.1]
    · rw [← r0] at hw near
      cases l with
      | nil =>
        simp only [List.sum_nil, List.length_nil] at *
        norm_num at *
        linarith [near.2]
      | cons p t =>
        rw [pickSum, if_pos (h.nonneg (by linarith [hl p (by simp)]))] at hw
        cases hw
  · intro w w1 w2
    have near := abs_le.1 (rng_near h w)
    generalize (value w : ℝ) / 2 ^ 64 = v at *
    have ε0 : 0 ≤ ((l.length : ℝ) + 2) / 2 ^ 51 := by positivity
    have hs1 : l.sum ≤ 1 := by
      by_contra hc
      rw [min_eq_left (not_le.1 hc).le] at w1
      linarith
    rw [min_eq_right hs1] at w1
    have r0 : 0 < rng fl w := by
      norm_num at *
      linarith [near.1]
    refine (pickSum_none h isFloat_zero r0 hl).2 ?_
    norm_num at *
    linarith [near.1, err.2]

/-- A level with two photons, and one whose intensities in the file add up to 1.01. -/
example : ∃ fl, Double fl ∧ |chance (fun w => pickSum fl 0 (rng fl w) [1 / 4, 3 / 4] = some 1) - 3 / 4| ≤ 1 / 2 ^ 48 ∧
    |chance (fun w => pickSum fl 0 (rng fl w) [26 / 100, 75 / 100] = some 1) - 3 / 4| ≤ 2 / 100 := by
  have h : Double (roundTo 53 (-1074)) := nearest_roundTo (by norm_num)
  refine ⟨_, h, ?_, ?_⟩
  · have := C126_chance h (l := [1 / 4, 3 / 4]) (by intro p hp; simp at hp; rcases hp with rfl | rfl <;> norm_num) (by norm_num) (by norm_num) (i := 1) (by norm_num)
    norm_num at this ⊢
    linarith
  · have := C126_chance h (l := [26 / 100, 75 / 100]) (by intro p hp; simp at hp; rcases hp with rfl | rfl <;> norm_num) (by norm_num) (by norm_num) (i := 1) (by norm_num)
    norm_num at this ⊢
    linarith

end CGMF.Props

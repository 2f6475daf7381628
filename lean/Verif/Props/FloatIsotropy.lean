import Verif.Props.FloatPick

/-!
# C150: directions and parities over all random bits

`chance` (`Props/FloatPick.lean`) is the share of the outputs of the engine for which something happens.
-/

namespace CGMF.Props

open CGMF CGMF.Fp CGMF.Twist CGMF.Pick

variable {fl : ℝ → ℝ}

theorem chance_le_one {α : Type} [Finite α] (E : α → Prop) : chance E ≤ 1 := by
  unfold chance
  refine div_le_one_of_le₀ ?_ (by positivity)
  rw [← Set.ncard_univ]
  exact_mod_cast Set.ncard_le_ncard (Set.subset_univ _) (Set.toFinite _)

/-- Cosines `2*rng-1` (FissionFragments.cpp:1487; kinematics.cpp:104, 201, 281, 371): the chance of at most `x` is `(x+1)/2`. -/
theorem C150_cosine (h : Double fl) {x : ℝ} (x0 : -1 ≤ x) (x1 : x ≤ 1) :
    |chance (fun w => isoCos fl (rng fl w) ≤ x) - (x + 1) / 2| ≤ 1 / 2 ^ 51 := by
  have near : ∀ w, |isoCos fl (rng fl w) - (2 * ((value w : ℝ) / 2 ^ 64) - 1)| ≤ 3 / 2 ^ 53 := by
    intro w
    obtain ⟨rd, r0, r1⟩ := rng_range h w
    have e1 := abs_le.1 (rng_near h w)
    have d : fl (2 * rng fl w) = 2 * rng fl w := h.fix (double_twice rd)
    unfold isoCos
    rw [d]
    have a := h.error (x := 2 * rng fl w - 1) (e := -53) (by norm_num) (by norm_num) (by
      norm_num
      rw [abs_le]; constructor <;> linarith)
    have a := abs_le.1 a
    rw [abs_le]
    norm_num at a e1 ⊢
    constructor <;> linarith [a.1, a.2, e1.1, e1.2]
  have key := chance_interval (E := fun w => isoCos fl (rng fl w) ≤ x) (a := 0) (b := (x + 1) / 2) (ε := 3 / 2 ^ 54)
    le_rfl (by linarith) (by linarith) (by positivity) ?_ ?_
  · rw [sub_zero] at key
    refine key.trans ?_
    norm_num
  · intro w hw
    have a := abs_le.1 (near w)
    have v0 : (0 : ℝ) ≤ (value w : ℝ) / 2 ^ 64 := by positivity
    generalize (value w : ℝ) / 2 ^ 64 = v at *
    norm_num at a ⊢
    constructor <;> linarith [a.1]
  · intro w _ w2
    have a := abs_le.1 (near w)
    generalize (value w : ℝ) / 2 ^ 64 = v at *
    norm_num at a w2 ⊢
    linarith [a.2]

/-- Azimuths `twopi*rng` (FissionFragments.cpp:1486; kinematics.cpp:103, 200, 263, 367): the chance of at most the part `s` of a turn is `s`. -/
theorem C150_azimuth (h : Double fl) {twopi s : ℝ} (ht : 1 ≤ twopi) (s0 : 0 ≤ s) (s1 : s ≤ 1) :
    |chance (fun w => fl (twopi * rng fl w) ≤ s * twopi) - s| ≤ 7 / 2 ^ 53 := by
  have p : (1 : ℝ) / 2 ^ 400 ≤ 1 := by rw [div_le_one (by positivity)]; exact one_le_pow₀ (by norm_num)
  have := C149_accept h (m := twopi) (p := s * twopi) (p.trans ht) (by positivity) (mul_le_of_le_one_left (by linarith) s1)
  rw [mul_div_cancel_right₀ _ (show twopi ≠ 0 by linarith)] at this
  refine le_trans (le_of_eq ?_) this
  congr 2
  exact chance_congr fun w => by rw [not_lt, mul_comm]

/-- **C150.** Directions: azimuth and cosine drawn one after the other.  The chance that the cosine is at most `x` and the azimuth at most the
part `s` of a turn is the share of this piece in the sphere, up to 11 units of `2^-53`. -/
theorem C150_direction (h : Double fl) {twopi x s : ℝ} (ht : 1 ≤ twopi) (x0 : -1 ≤ x) (x1 : x ≤ 1) (s0 : 0 ≤ s) (s1 : s ≤ 1) :
    |chance (fun w : Pair × Pair => fl (twopi * rng fl w.1) ≤ s * twopi ∧ isoCos fl (rng fl w.2) ≤ x) - s * ((x + 1) / 2)| ≤ 11 / 2 ^ 53 := by
  rw [chance_and (fun w : Pair => fl (twopi * rng fl w) ≤ s * twopi) (fun w : Pair => isoCos fl (rng fl w) ≤ x)]
  have a := C150_azimuth h ht s0 s1
  have b := C150_cosine h x0 x1
  set p := chance (fun w => fl (twopi * rng fl w) ≤ s * twopi)
  set q := chance (fun w => isoCos fl (rng fl w) ≤ x)
  have q0 : 0 ≤ q := chance_nonneg _
  have q1 : q ≤ 1 := chance_le_one _
  have r : p * q - s * ((x + 1) / 2) = (p - s) * q + s * (q - (x + 1) / 2) := by ring
  rw [r]
  refine (abs_add_le _ _).trans ?_
  rw [abs_mul, abs_mul, abs_of_nonneg q0, abs_of_nonneg s0]
  have u1 : |p - s| * q ≤ 7 / 2 ^ 53 * 1 := mul_le_mul a q1 q0 (by positivity)
  have u2 : s * |q - (x + 1) / 2| ≤ 1 * (1 / 2 ^ 51) := mul_le_mul s1 b (abs_nonneg _) zero_le_one
  norm_num at u1 u2 ⊢
  linarith

/-- **C150.** Parities (FissionFragments.cpp:1468-1469): each of the four combinations of the two fragments has the chance 1/4 up to `2^-50`. -/
theorem C150_parity (h : Double fl) {l k : Int} (hl : l = 1 ∨ l = -1) (hk : k = 1 ∨ k = -1) :
    |chance (fun w : Pair × Pair => parity fl w.1 = l ∧ parity fl w.2 = k) - 1 / 4| ≤ 1 / 2 ^ 50 := by
  have half : ∀ l : Int, l = 1 ∨ l = -1 → |chance (fun w : Pair => parity fl w = l) - 1 / 2| ≤ 3 / 2 ^ 53 := by
    have pos : ∀ w, parity fl w = 1 ↔ 1 / 2 ≤ rng fl w := fun w => by
      unfold parity
      split_ifs with hc
      · exact ⟨fun e => absurd e (by norm_num), fun e => absurd e (not_le.2 hc)⟩
      · exact ⟨fun _ => not_lt.1 hc, fun _ => rfl⟩
    have neg : ∀ w, parity fl w = -1 ↔ rng fl w < 1 / 2 := fun w => by
      unfold parity
      split_ifs with hc
      · exact ⟨fun _ => hc, fun _ => rfl⟩
      · exact ⟨fun e => absurd e (by norm_num), fun e => absurd e hc⟩
    rintro l (rfl | rfl)
    · have key := chance_interval (E := fun w => parity fl w = 1) (a := 1 / 2) (b := 1) (ε := 1 / 2 ^ 53)
        (by norm_num) (by norm_num) le_rfl (by positivity) ?_ ?_
      · norm_num at key ⊢
        linarith
      · intro w hw
        have near := abs_le.1 (rng_near h w)
        have v1 : (value w : ℝ) / 2 ^ 64 ≤ 1 := by
          rw [div_le_one (by positivity)]
          exact_mod_cast (value_lt w).le
        generalize (value w : ℝ) / 2 ^ 64 = v at *
        rw [pos] at hw
        norm_num at near hw ⊢
        constructor <;> linarith [near.2]
      · intro w w1 _
        have near := abs_le.1 (rng_near h w)
        generalize (value w : ℝ) / 2 ^ 64 = v at *
        rw [pos]
        norm_num at near w1 ⊢
        linarith [near.1]
    · have key := chance_interval (E := fun w => parity fl w = -1) (a := 0) (b := 1 / 2) (ε := 1 / 2 ^ 53)
        (by norm_num) (by norm_num) (by norm_num) (by positivity) ?_ ?_
      · norm_num at key ⊢
        linarith
      · intro w hw
        have near := abs_le.1 (rng_near h w)
        have v0 : (0 : ℝ) ≤ (value w : ℝ) / 2 ^ 64 := by positivity
        generalize (value w : ℝ) / 2 ^ 64 = v at *
        rw [neg] at hw
        norm_num at near hw ⊢
        constructor <;> linarith [near.1]
      · intro w _ w2
        have near := abs_le.1 (rng_near h w)
        generalize (value w : ℝ) / 2 ^ 64 = v at *
        rw [neg]
        norm_num at near w2 ⊢
        linarith [near.2]
  rw [chance_and (fun w : Pair => parity fl w = l) (fun w : Pair => parity fl w = k)]
  have a := abs_le.1 (half l hl)
  have b := abs_le.1 (half k hk)
  set p := chance (fun w : Pair => parity fl w = l)
  set q := chance (fun w : Pair => parity fl w = k)
  have q0 : 0 ≤ q := chance_nonneg _
  have q1 : q ≤ 1 := chance_le_one _
  have r : p * q - 1 / 4 = (p - 1 / 2) * q + 1 / 2 * (q - 1 / 2) := by ring
  rw [r]
  refine (abs_add_le _ _).trans ?_
  rw [abs_mul, abs_mul, abs_of_nonneg q0, abs_of_pos (show (0 : ℝ) < 1 / 2 by norm_num)]
  have u1 : |p - 1 / 2| * q ≤ 3 / 2 ^ 53 * 1 := mul_le_mul (abs_le.2 a) q1 q0 (by positivity)
  have u2 := abs_le.2 b
  norm_num at u1 u2 ⊢
  linarith

/-- A quarter of a turn and the upper half: one eighth of all directions. -/
example : ∃ fl, Double fl ∧
    |chance (fun w : Pair × Pair => fl (6 * rng fl w.1) ≤ 1 / 4 * 6 ∧ isoCos fl (rng fl w.2) ≤ 0) - 1 / 8| ≤ 11 / 2 ^ 53 := by
  have h : Double (roundTo 53 (-1074)) := nearest_roundTo (by norm_num)
  refine ⟨_, h, ?_⟩
  have := C150_direction h (twopi := 6) (x := 0) (s := 1 / 4) (by norm_num) (by norm_num) (by norm_num) (by norm_num) (by norm_num)
  norm_num at this ⊢
  exact this

end CGMF.Props

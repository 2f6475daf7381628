import Verif.Proofs.Twister
import Verif.Proofs.Float

/-!
# Property C130: seeds and random numbers
-/

namespace CGMF.Props

open CGMF.Twist CGMF.Fp CGMF.Driver

/-- **C130.** `set_seed` with two different seeds: the engines give different words, and the difference shows within the first 399
ones, whatever the generators were used for before. -/
theorem C130_seeds (fl : ℝ → ℝ) {s t : Int} (hs : -2 ^ 31 ≤ s ∧ s < 2 ^ 31) (ht : -2 ^ 31 ≤ t ∧ t < 2 ^ 31) (hne : s ≠ t)
    (r r' : Rng (List Word)) :
    words 399 (r.setSeed (engine fl) s).gen ≠ words 399 (r'.setSeed (engine fl) t).gen := by
  intro h
  exact hne (int_of_bits hs ht (seed_of_words h))

/-- **C130.** Two different events of a run, on the same rank or on different ranks, take their random numbers from
different sequences of words. -/
theorem C130_events (fl : ℝ → ℝ) {nevents start ip jp i j : Int} (hi : 0 ≤ i ∧ i < nevents) (hj : 0 ≤ j ∧ j < nevents)
    (hne : (ip, i) ≠ (jp, j)) (hs : -2 ^ 31 ≤ seedOf nevents start ip i ∧ seedOf nevents start ip i < 2 ^ 31)
    (ht : -2 ^ 31 ≤ seedOf nevents start jp j ∧ seedOf nevents start jp j < 2 ^ 31) (r r' : Rng (List Word)) :
    words 399 (r.setSeed (engine fl) (seedOf nevents start ip i)).gen
      ≠ words 399 (r'.setSeed (engine fl) (seedOf nevents start jp j)).gen := by
  refine C130_seeds fl hs ht ?_ r r'
  intro h
  apply hne
  unfold seedOf at h
  have e : i + ip * nevents = j + jp * nevents := by linarith
  have key : ip = jp := by
    by_contra hk
    rcases lt_or_gt_of_ne hk with hl | hl
    · have : (ip + 1) * nevents ≤ jp * nevents := mul_le_mul_of_nonneg_right (by omega) (by omega)
      linarith
    · have : (jp + 1) * nevents ≤ ip * nevents := mul_le_mul_of_nonneg_right (by omega) (by omega)
      linarith
  subst key
  rw [show i = j by linarith]

/-- A run of 1000 events on two ranks starting at event 5: the last event of rank 0 and the first of rank 1. -/
example (fl : ℝ → ℝ) (r : Rng (List Word)) :
    words 399 (r.setSeed (engine fl) (seedOf 1000 5 0 999)).gen ≠ words 399 (r.setSeed (engine fl) (seedOf 1000 5 1 0)).gen :=
  C130_events fl (by decide) (by decide) (by decide) (by decide) (by decide) r r

/-- **C130.** The seed given to the constructor has no effect: the words are those of `set_seed(5489)`, and so differ from those
of `set_seed` with any other seed. -/
theorem C130_constructor (fl : ℝ → ℝ) (s : Int) (r : Rng (List Word)) :
    (∀ n, words n (Rng.new (engine fl) s).gen = words n (r.setSeed (engine fl) 5489).gen) ∧
    ∀ t, -2 ^ 31 ≤ t ∧ t < 2 ^ 31 → t ≠ 5489 →
      words 399 (Rng.new (engine fl) s).gen ≠ words 399 (r.setSeed (engine fl) t).gen :=
  ⟨fun _ => rfl, fun _ ht hne => C130_seeds fl (by decide) ht hne.symm r r⟩

/-- The first two words of an unseeded engine. -/
example : words 2 unseeded = [3499211612#32, 581869302#32] := by decide +kernel

/-- The first word for seed 1. -/
example : words 1 (seeded 1) = [1791095845#32] := by decide +kernel

/-! ## The numbers -/

variable {fl : ℝ → ℝ}

theorem word_lt (g : Word) : (g.toNat : ℝ) + 1 ≤ 2 ^ 32 := by
  have : g.toNat + 1 ≤ 2 ^ 32 := g.isLt
  exact_mod_cast this

/-- The sum of the two words. -/
theorem sum_bounds (g0 g1 : Word) : (0 : ℝ) ≤ g0.toNat + g1.toNat * 2 ^ 32 ∧ (g0.toNat : ℝ) + g1.toNat * 2 ^ 32 + 1 ≤ 2 ^ 64 := by
  have h0 := word_lt g0
  have h1 := word_lt g1
  constructor
  · positivity
  · nlinarith

theorem unguarded_eq (h : Double fl) (g0 g1 : Word) :
    unguarded fl g0 g1 = fl (g0.toNat + g1.toNat * 2 ^ 32) / 2 ^ 64 ∧ IsDouble (fl (g0.toNat + g1.toNat * 2 ^ 32) / 2 ^ 64) := by
  have h1 : fl ((g1.toNat : ℝ) * 2 ^ 32) = g1.toNat * 2 ^ 32 := by
    apply h.fix
    have := isFloat_mul (p := 53) (emin := -1074) (m := g1.toNat) (e := 32)
      (by rw [abs_of_nonneg (by positivity)]; have := g1.isLt; norm_num at this ⊢; omega) (by omega) (by omega)
    simpa using this
  have hd : IsDouble (fl (g0.toNat + g1.toNat * 2 ^ 32) / 2 ^ 64) := by
    by_cases hsmall : g0.toNat + g1.toNat * 2 ^ 32 ≤ 2 ^ 53
    · have e : fl ((g0.toNat : ℝ) + g1.toNat * 2 ^ 32) = g0.toNat + g1.toNat * 2 ^ 32 := by
        apply h.fix
        have := isFloat_int (p := 53) (emin := -1074) (n := (g0.toNat + g1.toNat * 2 ^ 32 : Nat))
          (by rw [abs_of_nonneg (by positivity)]; exact_mod_cast hsmall) (by omega) (by omega)
        push_cast at this
        norm_num at this ⊢
        exact this
      rw [e]
      have := isFloat_mul (p := 53) (emin := -1074) (m := (g0.toNat + g1.toNat * 2 ^ 32 : Nat)) (e := -64)
          (by rw [abs_of_nonneg (by positivity)]; exact_mod_cast hsmall) (by omega) (by omega)
      push_cast at this
      rw [zpow_neg] at this
      exact_mod_cast this
    · have big : (2 : ℝ) ^ 53 ≤ fl (g0.toNat + g1.toNat * 2 ^ 32) := by
        apply h.ge_of
        · have := isFloat_zpow (p := 53) (emin := -1074) (e := 53) (by omega) (by omega)
          exact_mod_cast this
        · have : 2 ^ 53 ≤ g0.toNat + g1.toNat * 2 ^ 32 := by omega
          exact_mod_cast this
      obtain ⟨m, e, hm, he, hx⟩ := h.float (g0.toNat + g1.toNat * 2 ^ 32)
      refine ⟨m, e - 64, hm, ?_, ?_⟩
      · by_contra hlow
        have hm' : ((m : ℤ) : ℝ) ≤ 2 ^ 53 := by
          have := (le_abs_self m).trans hm.le
          exact_mod_cast this
        have he' : (2 : ℝ) ^ e ≤ 2 ^ (-1 : ℤ) := zpow_le_zpow_right₀ (by norm_num) (by omega)
        have hp : (0 : ℝ) < 2 ^ e := by positivity
        rw [hx] at big
        have : (m : ℝ) * 2 ^ e ≤ 2 ^ 53 * 2 ^ (-1 : ℤ) := by
          calc (m : ℝ) * 2 ^ e ≤ 2 ^ 53 * 2 ^ e := mul_le_mul_of_nonneg_right hm' hp.le
            _ ≤ _ := mul_le_mul_of_nonneg_left he' (by positivity)
        norm_num at this big
        linarith
      · rw [hx, zpow_sub₀ (by norm_num)]
        norm_cast
        rw [mul_div_assoc]
  refine ⟨?_, hd⟩
  unfold unguarded
  rw [h1, h.fix hd]

theorem below_double : IsDouble (1 - 1 / 2 ^ 53) := by
  have := isFloat_mul (p := 53) (emin := -1074) (m := 2 ^ 53 - 1) (e := -53) (by norm_num) (by omega) (by omega)
  convert this using 1
  norm_num

theorem number_eq (h : Double fl) (g0 g1 : Word) :
    number fl g0 g1 = (if 1 ≤ unguarded fl g0 g1 then 1 - 1 / 2 ^ 53 else unguarded fl g0 g1) ∧ IsDouble (number fl g0 g1) := by
  have hc : IsDouble (if 1 ≤ unguarded fl g0 g1 then 1 - 1 / 2 ^ 53 else unguarded fl g0 g1) := by
    split_ifs
    · exact below_double
    · rw [(unguarded_eq h g0 g1).1]; exact (unguarded_eq h g0 g1).2
  have e : number fl g0 g1 = (if 1 ≤ unguarded fl g0 g1 then 1 - 1 / 2 ^ 53 else unguarded fl g0 g1) := by
    unfold number
    simp only
    rw [mul_one, h.fix hc, add_zero, h.fix hc]
  exact ⟨e, e ▸ hc⟩

theorem unguarded_bounds (h : Double fl) (g0 g1 : Word) : 0 ≤ unguarded fl g0 g1 ∧ unguarded fl g0 g1 ≤ 1 := by
  obtain ⟨a, b⟩ := sum_bounds g0 g1
  rw [(unguarded_eq h g0 g1).1]
  have h64 : fl (g0.toNat + g1.toNat * 2 ^ 32) ≤ 2 ^ 64 := by
    apply h.le_of
    · have := isFloat_zpow (p := 53) (emin := -1074) (e := 64) (by omega) (by omega)
      exact_mod_cast this
    · linarith
  exact ⟨div_nonneg (h.nonneg a) (by positivity), by rw [div_le_one (by positivity)]; exact h64⟩

/-- **C130.** Whatever two words the engine gives and whatever the rule for ties: the number made of them is a `double`
with `0 ≤ r < 1`. -/
theorem C130_range (h : Double fl) (g0 g1 : Word) : IsDouble (number fl g0 g1) ∧ 0 ≤ number fl g0 g1 ∧ number fl g0 g1 < 1 := by
  obtain ⟨e, hd⟩ := number_eq h g0 g1
  obtain ⟨a, b⟩ := unguarded_bounds h g0 g1
  refine ⟨hd, ?_⟩
  rw [e]
  split_ifs with hc
  · norm_num
  · exact ⟨a, lt_of_not_ge hc⟩

/-- **C130.** The number is `(g0 + 2^32 g1) / 2^64` up to `2^-53`. -/
theorem C130_near (h : Double fl) (g0 g1 : Word) :
    |number fl g0 g1 - ((g0.toNat : ℝ) + g1.toNat * 2 ^ 32) / 2 ^ 64| ≤ 1 / 2 ^ 53 := by
  obtain ⟨a, b⟩ := sum_bounds g0 g1
  have err : |fl (g0.toNat + g1.toNat * 2 ^ 32) - (g0.toNat + g1.toNat * 2 ^ 32)| ≤ 2 ^ 10 := by
    have := h.error (x := g0.toNat + g1.toNat * 2 ^ 32) (e := 11) (by omega) (by omega)
      (by rw [abs_of_nonneg a]; norm_num at b ⊢; linarith)
    norm_num at this ⊢
    linarith
  obtain ⟨e1, e2⟩ := abs_le.mp err
  rw [(number_eq h g0 g1).1]
  have hu := (unguarded_eq h g0 g1).1
  rw [hu]
  split_ifs with hc
  · rw [one_le_div (by positivity)] at hc
    rw [abs_le]
    constructor
    · have : ((g0.toNat : ℝ) + g1.toNat * 2 ^ 32) / 2 ^ 64 ≤ 1 := by rw [div_le_one (by positivity)]; linarith
      linarith
    · have : 1 - 1 / 2 ^ 53 ≤ ((g0.toNat : ℝ) + g1.toNat * 2 ^ 32) / 2 ^ 64 := by
        rw [le_div_iff₀ (by positivity)]
        norm_num at e2 hc ⊢
        linarith
      have : (0 : ℝ) ≤ 1 / 2 ^ 53 := by positivity
      linarith
  · rw [← sub_div, abs_div, abs_of_pos (show (0 : ℝ) < 2 ^ 64 by positivity), div_le_iff₀ (by positivity)]
    norm_num at err ⊢
    linarith

/-- **C130.** The number is zero exactly if both words are zero; otherwise it is at least `2^-64`. -/
theorem C130_zero (h : Double fl) (g0 g1 : Word) :
    (g0 = 0#32 ∧ g1 = 0#32 → number fl g0 g1 = 0) ∧ (¬ (g0 = 0#32 ∧ g1 = 0#32) → 1 / 2 ^ 64 ≤ number fl g0 g1) := by
  have hu := (unguarded_eq h g0 g1).1
  constructor
  · rintro ⟨rfl, rfl⟩
    rw [(number_eq h _ _).1, hu]
    have : fl 0 = 0 := h.fix isFloat_zero
    simp [this]
  · intro hne
    have pos : 1 ≤ g0.toNat + g1.toNat * 2 ^ 32 := by
      by_contra hlt
      apply hne
      constructor <;> apply BitVec.eq_of_toNat_eq <;> simp <;> omega
    have : (1 : ℝ) ≤ fl (g0.toNat + g1.toNat * 2 ^ 32) := by
      apply h.ge_of
      · have := isFloat_int (p := 53) (emin := -1074) (n := 1) (by norm_num) (by omega) (by omega)
        simpa using this
      · exact_mod_cast pos
    rw [(number_eq h g0 g1).1, hu]
    split_ifs
    · norm_num
    · exact div_le_div_of_nonneg_right this (by positivity)

/-- **C130.** Without the guard of the library the number can be 1: the two words with all bits set. -/
theorem C130_guard_needed (h : Double fl) : unguarded fl 0xffffffff#32 0xffffffff#32 = 1 := by
  apply le_antisymm (unguarded_bounds h _ _).2
  rw [(unguarded_eq h _ _).1, one_le_div (by positivity)]
  have near := h.near (((0xffffffff#32).toNat : ℝ) + (0xffffffff#32).toNat * 2 ^ 32) (2 ^ 64)
    (by have := isFloat_zpow (p := 53) (emin := -1074) (e := 64) (by omega) (by omega); exact_mod_cast this)
  have val : ((0xffffffff#32).toNat : ℝ) + (0xffffffff#32).toNat * 2 ^ 32 = 2 ^ 64 - 1 := by
    have : (0xffffffff#32).toNat = 4294967295 := by decide
    rw [this]
    norm_num
  rw [val] at near ⊢
  have hge : (2 : ℝ) ^ 63 ≤ fl (2 ^ 64 - 1) := by
    apply h.ge_of
    · have := isFloat_zpow (p := 53) (emin := -1074) (e := 63) (by omega) (by omega)
      exact_mod_cast this
    · norm_num
  obtain ⟨k, hk⟩ := (h.float (2 ^ 64 - 1)).multiple (e := 11)
    (by rw [abs_of_nonneg (le_trans (by positivity) hge)]; norm_num at hge ⊢; exact hge)
  have n2 : |fl (2 ^ 64 - 1) - (2 ^ 64 - 1)| ≤ 1 := by simpa using near
  rw [hk] at n2 ⊢
  obtain ⟨l, _⟩ := abs_le.mp n2
  have hk2 : ((2 : ℝ) ^ 53 - 1) < k := by
    norm_num at l ⊢
    linarith
  have hk3 : (2 : Int) ^ 53 ≤ k := by
    have : (2 : Int) ^ 53 - 1 < k := by exact_mod_cast hk2
    omega
  have hk4 : (2 : ℝ) ^ 53 ≤ k := by exact_mod_cast hk3
  norm_num at hk4 ⊢
  linarith

/-- **C130.** Any history of draws and reseedings of a generator object: every number it returns is a `double` with
`0 ≤ r < 1`. -/
theorem C130_calls (h : Double fl) (ops : List RngOp) (r : Rng (List Word)) :
    ∀ x ∈ (Rng.run (engine fl) ops r).1, IsDouble x ∧ 0 ≤ x ∧ x < 1 := by
  induction ops generalizing r with
  | nil => simp [Rng.run]
  | cons op ops ih =>
    cases op with
    | draw =>
      intro x hx
      simp only [Rng.run, List.mem_cons] at hx
      rcases hx with rfl | hx
      · exact C130_range h _ _
      · exact ih _ x hx
    | setSeed s => exact ih _

/-- **C130.** The numbers drawn after `set_seed` are made of the words in order, two for each: number `k` of words `2k` and `2k+1`. -/
theorem C130_draws (st : List Word) (s : Int) (n k : Nat) (hk : k < n) :
    (Rng.draws (engine fl) n ⟨s, st⟩).getD k 0
      = number fl ((words (2 * n) st).getD (2 * k) 0) ((words (2 * n) st).getD (2 * k + 1) 0) := by
  induction n generalizing st k with
  | zero => omega
  | succ n ih =>
    rw [show 2 * (n + 1) = 2 * n + 1 + 1 by omega]
    cases k with
    | zero => simp [Rng.draws, Rng.draw, engine, words]
    | succ k =>
      have := ih (next (next st).2).2 k (by omega)
      simp only [Rng.draws, Rng.draw, List.getD_cons_succ, words, show 2 * (k + 1) = 2 * k + 1 + 1 by omega]
      exact this

/-- Two draws after `set_seed(1)`, the second of the words 2 and 3; and a number rounded as `double`s are. -/
example : (Rng.draws (engine (roundTo 53 (-1074))) 2 ⟨1, seeded 1⟩).getD 1 0
    = number (roundTo 53 (-1074)) ((words 4 (seeded 1)).getD 2 0) ((words 4 (seeded 1)).getD 3 0) :=
  C130_draws _ _ _ _ (by omega)

example : number (roundTo 53 (-1074)) 0xffffffff#32 0xffffffff#32 < 1 :=
  (C130_range (nearest_roundTo (by omega)) _ _).2.2

end CGMF.Props

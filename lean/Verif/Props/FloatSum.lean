import Verif.Props.FloatDirection

/-!
# C126: choices by running sums in double arithmetic
-/

namespace CGMF.Props

open CGMF.Fp

variable {fl : ℝ → ℝ}

/-- The running sum after the first `k` entries, starting at `s`. -/
noncomputable def runSum (fl : ℝ → ℝ) (s : ℝ) (l : List ℝ) (k : Nat) : ℝ := (l.take k).foldl (fun s p => fl (s + p)) s

theorem runSum_zero (s : ℝ) (l : List ℝ) : runSum fl s l 0 = s := by simp [runSum]

theorem runSum_cons (s p : ℝ) (t : List ℝ) (k : Nat) : runSum fl s (p :: t) (k + 1) = runSum fl (fl (s + p)) t k := by simp [runSum]

theorem runSum_succ (s : ℝ) (l : List ℝ) {k : Nat} (hk : k < l.length) : runSum fl s l (k + 1) = fl (runSum fl s l k + l[k]) := by
  unfold runSum
  rw [List.take_succ_eq_append_getElem hk, List.foldl_append]
  rfl

theorem runSum_double (h : Double fl) {s : ℝ} (hs : IsDouble s) (l : List ℝ) (k : Nat) : IsDouble (runSum fl s l k) := by
  induction l generalizing s k with
  | nil => simpa [runSum] using hs
  | cons p t ih =>
      cases k with
      | zero => rw [runSum_zero]; exact hs
      | succ k => rw [runSum_cons]; exact ih (h.float _) k

theorem runSum_le_succ (h : Double fl) {s : ℝ} (hs : IsDouble s) {l : List ℝ} (hl : ∀ p ∈ l, 0 ≤ p) {k : Nat} (hk : k < l.length) :
    runSum fl s l k ≤ runSum fl s l (k + 1) := by
  rw [runSum_succ s l hk]
  exact h.ge_of (runSum_double h hs l k) (by linarith [hl _ (List.getElem_mem hk)])

theorem runSum_mono (h : Double fl) {s : ℝ} (hs : IsDouble s) {l : List ℝ} (hl : ∀ p ∈ l, 0 ≤ p) {j k : Nat} (hjk : j ≤ k) (hk : k ≤ l.length) :
    runSum fl s l j ≤ runSum fl s l k := by
  induction k with
  | zero => rw [Nat.le_zero.1 hjk]
  | succ k ih =>
      rcases Nat.lt_or_ge j (k + 1) with hj | hj
      · exact (ih (by omega) (by omega)).trans (runSum_le_succ h hs hl (by omega))
      · rw [show j = k + 1 by omega]

theorem pickSum_some (h : Double fl) {s r : ℝ} (hs : IsDouble s) (hsr : s < r) {l : List ℝ} (hl : ∀ p ∈ l, 0 ≤ p) (i : Nat) :
    pickSum fl s r l = some i ↔ i < l.length ∧ runSum fl s l i < r ∧ r ≤ runSum fl s l (i + 1) := by
  induction l generalizing s i with
  | nil => simp [pickSum]
  | cons p t ih =>
      have ht : ∀ q ∈ t, 0 ≤ q := fun q hq => hl q (List.mem_cons_of_mem _ hq)
      rw [pickSum]
      split_ifs with hr
      · cases i with
        | zero => simp [runSum_zero, runSum_cons, hr, hsr]
        | succ i =>
            simp only [Option.some.injEq, (Nat.succ_ne_zero i).symm, runSum_cons, List.length_cons, false_iff, not_and, not_le]
            intro hi hlt
            have := runSum_mono h (h.float (s + p)) ht (Nat.zero_le i) (by omega)
            rw [runSum_zero] at this
            linarith
      · have hr := not_le.1 hr
        cases i with
        | zero =>
            simp only [Option.map_eq_some_iff, Nat.add_eq_zero_iff, one_ne_zero, and_false, exists_false, runSum_cons, runSum_zero, false_iff, not_and, not_le]
            intro _ _
            exact hr
        | succ i =>
            rw [runSum_cons, runSum_cons, List.length_cons, Nat.add_lt_add_iff_right, ← ih (h.float _) hr ht]
            simp only [Option.map_eq_some_iff, Nat.add_right_cancel_iff, exists_eq_right]

theorem pickSum_none (h : Double fl) {s r : ℝ} (hs : IsDouble s) (hsr : s < r) {l : List ℝ} (hl : ∀ p ∈ l, 0 ≤ p) :
    pickSum fl s r l = none ↔ runSum fl s l l.length < r := by
  induction l generalizing s with
  | nil => simp [pickSum, runSum, hsr]
  | cons p t ih =>
      have ht : ∀ q ∈ t, 0 ≤ q := fun q hq => hl q (List.mem_cons_of_mem _ hq)
      rw [pickSum, List.length_cons, runSum_cons]
      split_ifs with hr
      · simp only [reduceCtorEq, false_iff, not_lt]
        have := runSum_mono h (h.float (s + p)) ht (Nat.zero_le t.length) le_rfl
        rw [runSum_zero] at this
        linarith
      · rw [Option.map_eq_none_iff, ih (h.float _) (not_le.1 hr) ht]

/-- Accumulated error of the running sums. -/
theorem runSum_error (h : Double fl) {l : List ℝ} (hl : ∀ p ∈ l, 0 ≤ p) (hlen : l.length ≤ 2 ^ 40) (hsum : l.sum ≤ 5 / 4) :
    ∀ k, k ≤ l.length → |runSum fl 0 l k - (l.take k).sum| ≤ k / 2 ^ 51 := by
  intro k
  induction k with
  | zero => intro _; simp [runSum]
  | succ k ih =>
      intro hk
      have e := abs_le.1 (ih (by omega))
      have hk' : (k : ℝ) ≤ 2 ^ 40 := by exact_mod_cast (by omega : k ≤ 2 ^ 40)
      have t0 : 0 ≤ (l.take k).sum := List.sum_nonneg fun p hp => hl p (List.mem_of_mem_take hp)
      have hs : (l.take (k + 1)).sum = (l.take k).sum + l[k] := by
        rw [List.take_succ_eq_append_getElem hk, List.sum_append, List.sum_singleton]
      have t1 : (l.take (k + 1)).sum ≤ 5 / 4 := by
        have := List.sum_take_add_sum_drop l (k + 1)
        have : 0 ≤ (l.drop (k + 1)).sum := List.sum_nonneg fun p hp => hl p (List.mem_of_mem_drop hp)
        linarith
      have p0 := hl _ (List.getElem_mem hk)
      rw [runSum_succ 0 l hk]
      set S := runSum fl 0 l k
      have kb : (k : ℝ) / 2 ^ 51 ≤ 1 / 2 ^ 11 := by
        rw [div_le_div_iff₀ (by positivity) (by positivity)]
        have := mul_le_mul_of_nonneg_right hk' (by positivity : (0 : ℝ) ≤ 2 ^ 11)
        refine this.trans ?_
        norm_num
      have any := h.any (x := S + l[k]) (by norm_num)
      have hη := eta_le (k := 0) (by norm_num)
      rw [zpow_zero, one_mul] at hη
      set η : ℝ := 2 ^ (-1074 : Int) / 2
      have bd : |S + l[k]| ≤ 2 := by
        norm_num at kb
        rw [abs_le]; constructor <;> linarith [e.1, e.2]
      have any := abs_le.1 any
      rw [hs, abs_le]
      push_cast
      norm_num at any hη bd e ⊢
      constructor
      · linarith [any.1, e.1]
      · linarith [any.2, e.2]

/-- **C126.** Choice by running sums in `double` arithmetic, for a random number above zero: entry `i` is chosen exactly when the
random number lies in an interval whose ends differ from the exact partial sums by at most `i`, `i+1` times `2^-51`. -/
theorem C126_interval (h : Double fl) {l : List ℝ} (hl : ∀ p ∈ l, 0 ≤ p) (hlen : l.length ≤ 2 ^ 40) (hsum : l.sum ≤ 5 / 4) {i : Nat} (hi : i < l.length) :
    ∃ a b : ℝ, |a - (l.take i).sum| ≤ i / 2 ^ 51 ∧ |b - (l.take (i + 1)).sum| ≤ (i + 1) / 2 ^ 51 ∧
      ∀ r, 0 < r → (pickSum fl 0 r l = some i ↔ a < r ∧ r ≤ b) := by
  refine ⟨runSum fl 0 l i, runSum fl 0 l (i + 1), runSum_error h hl hlen hsum i (by omega), ?_, ?_⟩
  · have := runSum_error h hl hlen hsum (i + 1) (by omega)
    push_cast at this
    exact this
  · intro r hr
    rw [pickSum_some h isFloat_zero hr hl]
    exact ⟨fun x => x.2, fun x => ⟨hi, x⟩⟩

/-- **C126.** An entry of weight zero is never chosen, for every random number above zero. -/
theorem C126_zero (h : Double fl) {l : List ℝ} (hl : ∀ p ∈ l, 0 ≤ p) {r : ℝ} (hr : 0 < r) {i : Nat} (hp : pickSum fl 0 r l = some i) :
    ∃ hi : i < l.length, 0 < l[i] := by
  obtain ⟨hi, h1, h2⟩ := (pickSum_some h isFloat_zero hr hl i).1 hp
  refine ⟨hi, lt_of_le_of_ne (hl _ (List.getElem_mem hi)) fun e => ?_⟩
  rw [runSum_succ 0 l hi, ← e, add_zero, h.fix (runSum_double h isFloat_zero l i)] at h2
  linarith

/-- **C126.** No choice is made (and the forced transition is taken) only for random numbers within `N 2^-51` of the total weight or
above it, `N` being the number of entries. -/
theorem C126_fallback (h : Double fl) {l : List ℝ} (hl : ∀ p ∈ l, 0 ≤ p) (hlen : l.length ≤ 2 ^ 40) (hsum : l.sum ≤ 5 / 4) {r : ℝ} (hr : 0 < r)
    (hp : pickSum fl 0 r l = none) : l.sum - l.length / 2 ^ 51 < r := by
  have h1 := (pickSum_none h isFloat_zero hr hl).1 hp
  have h2 := abs_le.1 (runSum_error h hl hlen hsum l.length le_rfl)
  rw [List.take_length] at h2
  linarith [h2.1]

/-- A weight below half a unit in the last place is lost. -/
theorem absorbed (h : Double fl) : fl ((1 - 1 / 2 ^ 51) + 1 / 2 ^ 55) = 1 - 1 / 2 ^ 51 := by
  have ds : IsDouble (1 - 1 / 2 ^ 51 : ℝ) := by
    refine ⟨2 ^ 53 - 4, -53, by norm_num, by norm_num, ?_⟩
    norm_num
  have near := h.near ((1 - 1 / 2 ^ 51) + 1 / 2 ^ 55) _ ds
  have e : |(1 - 1 / 2 ^ 51 : ℝ) - ((1 - 1 / 2 ^ 51) + 1 / 2 ^ 55)| = 1 / 2 ^ 55 := by
    rw [sub_add_cancel_left, abs_neg, abs_of_pos (by positivity)]
  rw [e] at near
  have near := abs_le.1 near
  obtain ⟨m, hm⟩ := (h.float ((1 - 1 / 2 ^ 51) + 1 / 2 ^ 55)).multiple (e := -53) (by
    refine le_trans ?_ (le_abs_self _)
    norm_num at near ⊢
    linarith [near.1])
  rw [hm] at near ⊢
  have e53 : (2 : ℝ) ^ (-53 : Int) = 1 / 2 ^ 53 := by norm_num
  rw [e53] at near ⊢
  have a : (2 ^ 53 - 4 : ℝ) ≤ m := by
    norm_num at near ⊢
    linarith [near.1]
  have b : (m : ℝ) < 2 ^ 53 - 3 := by
    norm_num at near ⊢
    linarith [near.2]
  have a' : 2 ^ 53 - 4 ≤ m := by exact_mod_cast a
  have b' : m < 2 ^ 53 - 3 := by exact_mod_cast b
  have : m = 2 ^ 53 - 4 := by omega
  rw [this]
  norm_num

/-- **C126, refuted as equality.** Weights that add up to exactly one do not exclude the forced transition: with the weight
`1-2^-51` followed by sixteen of `2^-55`, the random number `1-2^-53` leads to no choice, for every rounding to nearest. -/
theorem C126_missed (h : Double fl) :
    ((1 - 1 / 2 ^ 51 : ℝ) :: List.replicate 16 (1 / 2 ^ 55)).sum = 1 ∧
    pickSum fl 0 (1 - 1 / 2 ^ 53) ((1 - 1 / 2 ^ 51) :: List.replicate 16 (1 / 2 ^ 55)) = none := by
  have ds : IsDouble (1 - 1 / 2 ^ 51 : ℝ) := by
    refine ⟨2 ^ 53 - 4, -53, by norm_num, by norm_num, ?_⟩
    norm_num
  have rest : ∀ n, pickSum fl (1 - 1 / 2 ^ 51) (1 - 1 / 2 ^ 53) (List.replicate n (1 / 2 ^ 55)) = none := by
    intro n
    induction n with
    | zero => rfl
    | succ n ih =>
        rw [List.replicate_succ, pickSum, absorbed h, if_neg (by norm_num), ih]
        rfl
  constructor
  · rw [List.sum_cons, List.sum_replicate]
    norm_num
  · rw [pickSum, zero_add, h.fix ds, if_neg (by norm_num), rest]
    rfl

/-- Three weights, the middle one zero, and `r = 1/2`. -/
example : ∃ fl, Double fl ∧ pickSum fl 0 (1 / 2) [1 / 4, 0, 3 / 4] = some 2 := by
  have h : Double (roundTo 53 (-1074)) := nearest_roundTo (by norm_num)
  have q : IsDouble (1 / 4 : ℝ) := ⟨1, -2, by norm_num, by norm_num, by norm_num⟩
  have o : IsDouble (1 : ℝ) := double_one
  refine ⟨_, h, ?_⟩
  have e1 : roundTo 53 (-1074) (0 + 1 / 4) = 1 / 4 := by rw [zero_add]; exact h.fix q
  have e2 : roundTo 53 (-1074) (1 / 4 + 0) = 1 / 4 := by rw [add_zero]; exact h.fix q
  have e3 : roundTo 53 (-1074) (1 / 4 + 3 / 4) = 1 := by norm_num; exact h.fix o
  simp only [pickSum, e1, e2, e3]
  norm_num

end CGMF.Props

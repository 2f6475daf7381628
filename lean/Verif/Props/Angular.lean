import Verif.Model.Fragments
import Verif.Model.Kinematics
import Verif.Tactics

/-!
# C52: angular distribution of the fragments

Readable from the statements with `Model/Fragments.lean` and `Model/Kinematics.lean`: `angular c n` is the table
of `computeFragmentAngularDistribution` for the anisotropy `c` with `n` rows (`none`: isotropic), pairs of cosine and
cumulative probability, `sampleCos` the sampler of `boost_pfn`, and `cosAt n k` the cosine of row `k`.
-/

namespace CGMF.Props

open CGMF CGMF.Frag CGMF.Kin

set_option linter.unusedSectionVars false

/-- The density the table is meant to follow. -/
noncomputable def density (c x : ℝ) : ℝ := 1 + (c - 1) * x * x

/-- Cumulative probability of row `k`. -/
noncomputable def cdfAt (c : ℝ) (n k : Nat) : ℝ := cumul c n k / cumul c n (n - 1)

theorem cosAt_mono {n i j : Nat} (hn : 2 ≤ n) (h : i < j) : cosAt (K := ℝ) n i < cosAt n j := by
  have hn' : (0 : ℝ) < (n : ℝ) - 1 := by
    have : (2 : ℝ) ≤ n := by exact_mod_cast hn
    linarith
  have h' : (i : ℝ) < j := by exact_mod_cast h
  unfold cosAt
  have : 2 * (i : ℝ) / ((n : ℝ) - 1) < 2 * (j : ℝ) / ((n : ℝ) - 1) := by
    apply div_lt_div_of_pos_right _ hn'
    linarith
  linarith

theorem cosAt_zero (n : Nat) : cosAt (K := ℝ) n 0 = -1 := by simp [cosAt]

theorem cosAt_last {n : Nat} (hn : 2 ≤ n) : cosAt (K := ℝ) n (n - 1) = 1 := by
  have hn' : (n : ℝ) - 1 ≠ 0 := by
    have : (2 : ℝ) ≤ n := by exact_mod_cast hn
    linarith
  unfold cosAt
  rw [Nat.cast_sub (by omega), Nat.cast_one, mul_div_assoc, div_self hn']
  ring

theorem cosAt_range {n k : Nat} (hn : 2 ≤ n) (hk : k < n) : -1 ≤ cosAt (K := ℝ) n k ∧ cosAt (K := ℝ) n k ≤ 1 := by
  constructor
  · rcases Nat.eq_zero_or_pos k with h | h
    · rw [h, cosAt_zero]
    · rw [← cosAt_zero n]; exact (cosAt_mono hn h).le
  · rcases Nat.eq_or_lt_of_le (show k ≤ n - 1 by omega) with h | h
    · rw [h, cosAt_last hn]
    · rw [← cosAt_last hn]; exact (cosAt_mono hn h).le

theorem cosAt_mirror {n k : Nat} (hn : 2 ≤ n) (hk : k < n) : cosAt (K := ℝ) n (n - 1 - k) = -cosAt n k := by
  have hn' : (n : ℝ) - 1 ≠ 0 := by
    have : (2 : ℝ) ≤ n := by exact_mod_cast hn
    linarith
  unfold cosAt
  rw [Nat.cast_sub (by omega), Nat.cast_sub (by omega), Nat.cast_one]
  field_simp
  ring

theorem density_nonneg {c x : ℝ} (hc : 0 ≤ c) (h0 : -1 ≤ x) (h1 : x ≤ 1) : 0 ≤ density c x := by
  unfold density
  have : x * x ≤ 1 := by nlinarith
  have h2 := mul_nonneg hc (mul_self_nonneg x)
  nlinarith

theorem cumul_succ (c : ℝ) (n k : Nat) : cumul c n (k + 1) = cumul c n k + density c (cosAt n (k + 1)) := rfl

theorem cumul_mono {c : ℝ} (hc : 0 ≤ c) {n : Nat} (hn : 2 ≤ n) {i j : Nat} (hij : i ≤ j) (hj : j < n) :
    cumul c n i ≤ cumul c n j := by
  induction j with
  | zero =>
      have : i = 0 := by omega
      rw [this]
  | succ j ih =>
      rcases Nat.eq_or_lt_of_le hij with h | h
      · rw [h]
      · rw [cumul_succ]
        obtain ⟨a, b⟩ := cosAt_range hn hj
        have := density_nonneg hc a b
        have := ih (by omega) (by omega)
        linarith

theorem cumul_pos {c : ℝ} (hc : 0 ≤ c) {n : Nat} (hn : 3 ≤ n) : 0 < cumul c n (n - 1) := by
  have h1 : cumul c n 1 ≤ cumul c n (n - 1) := cumul_mono hc (by omega) (by omega) (by omega)
  have h2 : cumul c n 1 = density c (cosAt n 1) := by rw [cumul_succ]; simp [cumul]
  have h3 := cosAt_mono (n := n) (by omega) (show 0 < 1 by omega)
  have h4 := cosAt_mono (n := n) (i := 1) (j := n - 1) (by omega) (by omega)
  rw [cosAt_zero] at h3
  rw [cosAt_last (by omega)] at h4
  have : 0 < density c (cosAt n 1) := by
    unfold density
    have := mul_nonneg hc (mul_self_nonneg (cosAt (K := ℝ) n 1))
    nlinarith
  linarith

theorem cdfAt_mono {c : ℝ} (hc : 0 ≤ c) {n : Nat} (hn : 3 ≤ n) {i j : Nat} (hij : i ≤ j) (hj : j < n) :
    cdfAt c n i ≤ cdfAt c n j :=
  div_le_div_of_nonneg_right (cumul_mono hc (by omega) hij hj) (cumul_pos hc hn).le

theorem angular_row {c : ℝ} (hc1 : c ≠ 1) (n : Nat) :
    ∃ tab, angular c n = some tab ∧ tab.length = n ∧
      ∀ (k : Nat) (a : ℝ × ℝ), tab[k]? = some a ↔ k < n ∧ a = (cosAt n k, cdfAt c n k) := by
  unfold angular
  rw [if_neg hc1]
  refine ⟨_, rfl, by simp, ?_⟩
  intro k a
  rw [List.getElem?_map]
  by_cases hk : k < n
  · rw [List.getElem?_range hk]
    simp only [Option.map_some, Option.some.injEq, hk, true_and]
    have : (if k = 0 then (-1 : ℝ) else cosAt n k) = cosAt n k := by
      split
      · rename_i h; rw [h, cosAt_zero]
      · rfl
    rw [this]
    exact eq_comm
  · rw [List.getElem?_eq_none (by simpa using not_lt.mp hk)]
    simp [hk]

/-- **C52.** For every anisotropy `c >= 0` other than 1 and `n >= 3` rows the table has `n` rows whose cosines
go from -1 to 1 in increasing order and whose cumulative probabilities start at 0, do not decrease and end at
1. (The code has 50 rows.) -/
theorem C52_table (c : ℝ) (hc : 0 ≤ c) (hc1 : c ≠ 1) (n : Nat) (hn : 3 ≤ n) :
    ∃ tab, angular c n = some tab ∧ tab.length = n ∧ tab[0]? = some ((-1 : ℝ), (0 : ℝ)) ∧
      tab[n - 1]? = some ((1 : ℝ), (1 : ℝ)) ∧
      ∀ (i j : Nat) (a b : ℝ × ℝ), i < j → tab[i]? = some a → tab[j]? = some b → a.1 < b.1 ∧ a.2 ≤ b.2 := by
  obtain ⟨tab, h1, h2, h3⟩ := angular_row hc1 n
  refine ⟨tab, h1, h2, ?_, ?_, ?_⟩
  · rw [h3]
    exact ⟨by omega, by rw [cosAt_zero]; simp [cdfAt, cumul]⟩
  · rw [h3]
    exact ⟨by omega, by rw [cosAt_last (by omega), cdfAt, div_self (cumul_pos hc hn).ne']⟩
  · intro i j a b hij ha hb
    rw [h3] at ha hb
    rw [ha.2, hb.2]
    exact ⟨cosAt_mono (by omega) hij, cdfAt_mono hc hn hij.le hb.1⟩

/-- Row found by the scan, for a table starting at or below `r` and ending above it. -/
theorem cdfScan_spec (r : ℝ) : ∀ (t : List (ℝ × ℝ)) (a : ℝ × ℝ) (acc : Option ((ℝ × ℝ) × (ℝ × ℝ))), t ≠ [] →
    a.2 ≤ r → (∀ z ∈ (a :: t).getLast?, r < z.2) →
    ∃ (i : Nat) (x y : ℝ × ℝ), (a :: t)[i]? = some x ∧ (a :: t)[i + 1]? = some y ∧ x.2 ≤ r ∧ r < y.2 ∧
      cdfScan (a :: t) r acc = some (x, y) := by
  intro t
  induction t with
  | nil => intro a acc h; exact absurd rfl h
  | cons b t ih =>
      intro a acc _ ha hlast
      rw [cdfScan, if_pos ha]
      by_cases hb : b.2 ≤ r
      · by_cases ht : t = []
        · subst ht
          have := hlast b (by simp)
          linarith
        · obtain ⟨i, x, y, h1, h2, h3, h4, h5⟩ := ih b (some (a, b)) ht hb (by
            intro z hz; apply hlast z; rw [List.getLast?_cons_cons]; exact hz)
          exact ⟨i + 1, x, y, by simpa using h1, by simpa using h2, h3, h4, h5⟩
      · refine ⟨0, a, b, rfl, rfl, ha, not_le.mp hb, ?_⟩
        match t with
        | [] => rfl
        | d :: t => rw [cdfScan, if_neg hb]

/-- **C52.** For every random number `r` in `[0, 1)` the sampled cosine exists, lies in `[-1, 1)` (so that the
polar angle is defined), and is below the cosine of row `k` exactly when `r` is below the cumulative
probability of row `k`: the table is inverted. -/
theorem C52_sampled (c : ℝ) (hc : 0 ≤ c) (hc1 : c ≠ 1) (n : Nat) (hn : 3 ≤ n) (r : ℝ) (hr0 : 0 ≤ r) (hr1 : r < 1)
    (s : List ℝ) : ∃ x, sampleCos (angular c n) (r :: s) = .ok (x, s) ∧ -1 ≤ x ∧ x < 1 ∧
      ∀ k, k < n → (x < cosAt n k ↔ r < cdfAt c n k) := by
  obtain ⟨tab, h1, h2, h3⟩ := angular_row hc1 n
  have f0 : tab[0]? = some (cosAt n 0, cdfAt c n 0) := (h3 0 _).mpr ⟨by omega, rfl⟩
  have fl : tab[n - 1]? = some (cosAt n (n - 1), cdfAt c n (n - 1)) := (h3 (n - 1) _).mpr ⟨by omega, rfl⟩
  have c0 : cdfAt c n 0 = 0 := by simp [cdfAt, cumul]
  have cl : cdfAt c n (n - 1) = 1 := by rw [cdfAt, div_self (cumul_pos hc hn).ne']
  match tab, h2, h3, f0, fl, h1 with
  | [], h2, _, _, _, _ => simp at h2; omega
  | a :: t, h2, h3, f0, fl, h1 =>
      have ha : a = (cosAt n 0, cdfAt c n 0) := by simpa using f0
      have ht : t ≠ [] := by intro h; rw [h] at h2; simp at h2; omega
      obtain ⟨i, x, y, g1, g2, g3, g4, g5⟩ := cdfScan_spec r t a none ht (by rw [ha, c0]; exact hr0) (by
        intro z hz
        rw [List.getLast?_eq_getElem?, h2, fl] at hz
        have hz : (cosAt n (n - 1), cdfAt c n (n - 1)) = z := by simpa using hz
        rw [← hz]
        simp only []
        rw [cl]
        exact hr1)
      rw [h3] at g1 g2
      obtain ⟨i1, rfl⟩ := g1
      obtain ⟨i2, rfl⟩ := g2
      simp only [] at g3 g4
      have hd : 0 < cdfAt c n (i + 1) - cdfAt c n i := by linarith
      have hx := cosAt_mono (n := n) (by omega) (show i < i + 1 by omega)
      have hrun : sampleCos (angular c n) (r :: s) = .ok (((cosAt n (i + 1) - cosAt n i) * r
          - cdfAt c n i * cosAt n (i + 1) + cdfAt c n (i + 1) * cosAt n i) / (cdfAt c n (i + 1) - cdfAt c n i), s) := by
        rw [h1]
        unfold sampleCos cdfCos
        simp only []
        rw [Rnd.bind_of_ok (Rnd.draw_cons r s), Rnd.bind_of_ok (Rnd.get_ok.mpr ⟨g5, rfl⟩)]
        rw [Rnd.bind_of_ok (show needs (cdfAt c n (i + 1) - cdfAt c n i ≠ 0) s = .ok ((), s) by
          unfold needs; rw [if_pos hd.ne'])]
        rfl
      have hlo : cosAt n i ≤ ((cosAt n (i + 1) - cosAt n i) * r - cdfAt c n i * cosAt n (i + 1)
          + cdfAt c n (i + 1) * cosAt n i) / (cdfAt c n (i + 1) - cdfAt c n i) := by
        rw [le_div_iff₀ hd]; nlinarith
      have hhi : ((cosAt n (i + 1) - cosAt n i) * r - cdfAt c n i * cosAt n (i + 1)
          + cdfAt c n (i + 1) * cosAt n i) / (cdfAt c n (i + 1) - cdfAt c n i) < cosAt n (i + 1) := by
        rw [div_lt_iff₀ hd]; nlinarith
      refine ⟨_, hrun, ?_, ?_, ?_⟩
      · exact le_trans (cosAt_range (by omega) i1).1 hlo
      · exact lt_of_lt_of_le hhi (cosAt_range (by omega) i2).2
      · intro k hk
        constructor
        · intro h
          have hik : i < k := by
            by_contra hcon
            rcases Nat.eq_or_lt_of_le (not_lt.mp hcon) with h' | h'
            · rw [h'] at h; linarith
            · have := cosAt_mono (n := n) (by omega) h'; linarith
          exact lt_of_lt_of_le g4 (cdfAt_mono hc hn hik hk)
        · intro h
          have hik : i < k := by
            by_contra hcon
            have := cdfAt_mono hc hn (not_lt.mp hcon) i1
            linarith
          rcases Nat.eq_or_lt_of_le (show i + 1 ≤ k from hik) with h' | h'
          · rw [← h']; exact hhi
          · exact lt_trans hhi (cosAt_mono (by omega) h')

/-- The hypotheses with 50 rows and the anisotropy 1.2. -/
example : ∃ x, sampleCos (angular (6 / 5) 50) [1 / 3] = .ok (x, []) ∧ -1 ≤ x ∧ x < 1 := by
  obtain ⟨x, h, h0, h1, _⟩ := C52_sampled (6 / 5) (by norm_num) (by norm_num) 50 (by norm_num) (1 / 3) (by norm_num)
    (by norm_num) []
  exact ⟨x, h, h0, h1⟩

/-- An instance of the table. -/
example : ∃ tab, angular (6 / 5 : ℝ) 50 = some tab ∧ tab.length = 50 ∧ tab[0]? = some ((-1 : ℝ), (0 : ℝ)) := by
  obtain ⟨tab, h1, h2, h3, _⟩ := C52_table (6 / 5) (by norm_num) (by norm_num) 50 (by norm_num)
  exact ⟨tab, h1, h2, h3⟩

/-- **C52.** Without anisotropy the cosine is uniform between -1 and 1. -/
theorem C52_isotropic (n : Nat) (r : ℝ) (s : List ℝ) : sampleCos (angular 1 n) (r :: s) = .ok (2 * r - 1, s) := by
  unfold angular
  rw [if_pos rfl]
  rfl

theorem cumul_mirror (c : ℝ) {n : Nat} (hn : 2 ≤ n) : ∀ k, k < n →
    cumul c n (n - 1) - cumul c n (n - 1 - k) = cumul c n k + density c (-1) - density c (cosAt n k) := by
  intro k
  induction k with
  | zero => intro _; rw [cosAt_zero]; simp [cumul]
  | succ k ih =>
      intro hk
      have h1 := ih (by omega)
      have h2 : n - 1 - k = (n - 1 - (k + 1)) + 1 := by omega
      have h3 : density c (cosAt n (n - 1 - k)) = density c (cosAt n k) := by
        rw [cosAt_mirror hn (by omega)]; unfold density; ring
      have h4 : cumul c n (n - 1 - k) = cumul c n (n - 1 - (k + 1)) + density c (cosAt n (n - 1 - k)) := by
        rw [h2, cumul_succ]
      rw [cumul_succ]
      linarith

/-- **C52**, finding: the table is not symmetric although the density is. For every row `k` the probability of
a cosine above `-x` minus that of one below `x`, where `x` is the cosine of row `k`, is
`(c-1)(1-x^2)` over the sum of all rows: positive for `c > 1`, negative for `c < 1`, except at the ends. (The sum leaves out the
row at cosine -1.) -/
theorem C52_asymmetric (c : ℝ) (hc : 0 ≤ c) (n : Nat) (hn : 3 ≤ n) (k : Nat) (hk : k < n) :
    cosAt (K := ℝ) n (n - 1 - k) = -cosAt n k ∧
    (1 - cdfAt c n (n - 1 - k)) - cdfAt c n k = (c - 1) * (1 - cosAt n k * cosAt n k) / cumul c n (n - 1) := by
  refine ⟨cosAt_mirror (by omega) hk, ?_⟩
  have h := cumul_mirror c (n := n) (by omega) k hk
  have hp := cumul_pos hc hn
  unfold cdfAt
  rw [eq_div_iff hp.ne', sub_mul, sub_mul, one_mul, div_mul_cancel₀ _ hp.ne', div_mul_cancel₀ _ hp.ne']
  unfold density at h
  linarith

/-- With 50 rows and `c > 1` a light fragment is emitted more often above the cosine `1/49` of row 25 than below
`-1/49` of row 24. -/
example (c : ℝ) (h : 1 < c) : cdfAt c 50 24 < 1 - cdfAt c 50 25 := by
  obtain ⟨_, h2⟩ := C52_asymmetric c (by linarith) 50 (by norm_num) 24 (by norm_num)
  have h3 := cumul_pos (c := c) (by linarith) (n := 50) (by norm_num)
  have h4 : (0 : ℝ) < (c - 1) * (1 - cosAt 50 24 * cosAt 50 24) := by
    apply mul_pos (by linarith)
    unfold cosAt
    norm_num
  have := div_pos h4 h3
  rw [← h2] at this
  norm_num at this
  linarith

end CGMF.Props

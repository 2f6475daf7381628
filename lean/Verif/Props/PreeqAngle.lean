import Verif.Model.PreeqAngle
import Verif.Props.Angular
import Mathlib.Analysis.SpecialFunctions.Trigonometric.DerivHyp
import Mathlib.Algebra.BigOperators.Intervals
import Mathlib.Analysis.Complex.ExponentialBounds

/-!
# C112: angular distribution of pre-equilibrium neutrons

Readable from the statements: `fit p0 p1 x` is the fitted density in the cosine `x`, `share p0 p1 n k` the part of it in
the first `k` of `n - 1` equal intervals, each represented by its upper end; `preeqRows` (Model/PreeqAngle) is the table of
the code, `cdfCos` its sampler in kinematics.cpp, `cosAt n k` the cosine of row `k`.
-/

namespace CGMF.Props

open CGMF CGMF.Frag CGMF.Kin

/-- The fit in data/preeq-scattering-params.dat. -/
noncomputable def fit (p0 p1 x : ℝ) : ℝ := p0 * Real.sinh x + p1

/-- Part of the fitted density in the first `k` intervals. -/
noncomputable def share (p0 p1 : ℝ) (n k : Nat) : ℝ :=
  (∑ i ∈ Finset.range k, fit p0 p1 (cosAt n (i + 1))) / ∑ i ∈ Finset.range (n - 1), fit p0 p1 (cosAt n (i + 1))

theorem preeqSum_eq {p0 p1 : ℝ} (h : ¬ (p0 = 0 ∧ p1 = 0)) (n k : Nat) :
    preeqSum p0 p1 n k = ∑ i ∈ Finset.range k, fit p0 p1 (cosAt n (i + 1)) := by
  induction k with
  | zero => simp [preeqSum]
  | succ k ih => rw [preeqSum, if_neg h, ih, Finset.sum_range_succ, fit]; ring

theorem preeqSum_zero (n k : Nat) : preeqSum 0 0 n (k + 1) = 1 := by simp [preeqSum]

/-- An odd function adds up to its value at one over the rows. -/
theorem odd_sum (g : ℝ → ℝ) (hg : ∀ x, g (-x) = -g x) {n : Nat} (hn : 2 ≤ n) :
    ∑ i ∈ Finset.range (n - 1), g (cosAt n (i + 1)) = g 1 := by
  obtain ⟨m, rfl⟩ : ∃ m, n = m + 2 := ⟨n - 2, by omega⟩
  show ∑ i ∈ Finset.range (m + 1), g (cosAt (m + 2) (i + 1)) = g 1
  rw [Finset.sum_range_succ]
  have h1 : cosAt (K := ℝ) (m + 2) (m + 1) = 1 := cosAt_last (n := m + 2) (by omega)
  have h2 : ∑ i ∈ Finset.range m, g (cosAt (m + 2) (i + 1)) = -∑ i ∈ Finset.range m, g (cosAt (m + 2) (i + 1)) := by
    conv_lhs => rw [← Finset.sum_range_reflect]
    rw [← Finset.sum_neg_distrib]
    apply Finset.sum_congr rfl
    intro i hi
    have hi' := Finset.mem_range.1 hi
    rw [← hg, ← cosAt_mirror (n := m + 2) (by omega) (by omega)]
    congr 2
    omega
  rw [h1]
  linarith

theorem total_eq {n : Nat} (hn : 2 ≤ n) (p0 p1 : ℝ) :
    ∑ i ∈ Finset.range (n - 1), fit p0 p1 (cosAt n (i + 1)) = p0 * Real.sinh 1 + ((n : ℝ) - 1) * p1 := by
  unfold fit
  rw [Finset.sum_add_distrib, ← Finset.mul_sum, odd_sum Real.sinh Real.sinh_neg hn]
  rw [Finset.sum_const, Finset.card_range, nsmul_eq_mul, Nat.cast_sub (by omega), Nat.cast_one]

/-- **C112.** The table exists exactly when the fitted density has a non-zero sum, or both parameters are zero; otherwise
every row is a division of zero by zero. -/
theorem C112_defined (p0 p1 : ℝ) (n : Nat) (hn : 2 ≤ n) :
    ((∃ t, preeqRows p0 p1 n = .ok t) ↔ (p0 = 0 ∧ p1 = 0) ∨ p0 * Real.sinh 1 + ((n : ℝ) - 1) * p1 ≠ 0) ∧
    (preeqRows p0 p1 n = .ub ↔ ¬ (p0 = 0 ∧ p1 = 0) ∧ p0 * Real.sinh 1 + ((n : ℝ) - 1) * p1 = 0) := by
  unfold preeqRows
  by_cases h : p0 = 0 ∧ p1 = 0
  · obtain ⟨rfl, rfl⟩ := h
    obtain ⟨m, rfl⟩ : ∃ m, n = m + 2 := ⟨n - 2, by omega⟩
    have : preeqSum 0 0 (m + 2) (m + 2 - 1) = 1 := preeqSum_zero _ m
    rw [this]
    simp
  · rw [preeqSum_eq h, total_eq hn]
    by_cases h2 : p0 * Real.sinh 1 + ((n : ℝ) - 1) * p1 = 0
    · simp [h, h2]
    · simp [h, h2]

theorem rows_at {p0 p1 : ℝ} {n : Nat} {tab : List (ℝ × ℝ)} (h : preeqRows p0 p1 n = .ok tab) :
    preeqSum p0 p1 n (n - 1) ≠ 0 ∧ tab.length = n ∧
      ∀ (k : Nat) (a : ℝ × ℝ), tab[k]? = some a ↔
        k < n ∧ a = (cosAt n k, preeqSum p0 p1 n k / preeqSum p0 p1 n (n - 1)) := by
  unfold preeqRows at h
  by_cases h0 : preeqSum p0 p1 n (n - 1) = 0
  · rw [if_pos h0] at h; cases h
  · rw [if_neg h0] at h
    cases h
    refine ⟨h0, by simp, ?_⟩
    intro k a
    rw [List.getElem?_map]
    by_cases hk : k < n
    · rw [List.getElem?_range hk]
      simp only [Option.map_some, Option.some.injEq, hk, true_and]
      have : (if k = 0 then (-1 : ℝ) else cosAt n k) = cosAt n k := by
        split
        · rename_i h; rw [h, cosAt_zero]
        · rfl
      rw [this]
      exact eq_comm
    · rw [List.getElem?_eq_none (by simpa using not_lt.mp hk)]
      simp [hk]

/-- The scan stops before the first row above `r`. -/
theorem cdfScan_first (r : ℝ) : ∀ (t : List (ℝ × ℝ)) (a : ℝ × ℝ) (acc : Option ((ℝ × ℝ) × (ℝ × ℝ))), t ≠ [] →
    a.2 ≤ r → (∀ z ∈ (a :: t).getLast?, r < z.2) →
    ∃ (i : Nat) (x y : ℝ × ℝ), (a :: t)[i]? = some x ∧ (a :: t)[i + 1]? = some y ∧ r < y.2 ∧
      (∀ j z, j ≤ i → (a :: t)[j]? = some z → z.2 ≤ r) ∧ cdfScan (a :: t) r acc = some (x, y) := by
  intro t
  induction t with
  | nil => intro a acc h; exact absurd rfl h
  | cons b t ih =>
      intro a acc _ ha hlast
      rw [cdfScan, if_pos ha]
      by_cases hb : b.2 ≤ r
      · by_cases ht : t = []
        · subst ht
          have := hlast b (by simp)
          linarith
        · obtain ⟨i, x, y, h1, h2, h3, h4, h5⟩ := ih b (some (a, b)) ht hb (by
            intro z hz; apply hlast z; rw [List.getLast?_cons_cons]; exact hz)
          refine ⟨i + 1, x, y, by simpa using h1, by simpa using h2, h3, ?_, h5⟩
          intro j z hj hz
          cases j with
          | zero =>
              have : a = z := by simpa using hz
              rw [← this]; exact ha
          | succ j => exact h4 j z (by omega) (by simpa using hz)
      · refine ⟨0, a, b, rfl, rfl, not_le.mp hb, ?_, ?_⟩
        · intro j z hj hz
          have hj0 : j = 0 := by omega
          subst hj0
          have : a = z := by simpa using hz
          rw [← this]; exact ha
        · match t with
          | [] => rfl
          | d :: t => rw [cdfScan, if_neg hb]

/-- What the sampler gives for every table: the segment and the place in it. -/
theorem preeq_segment {p0 p1 : ℝ} {n : Nat} (hn : 2 ≤ n) {tab : List (ℝ × ℝ)} (h : preeqRows p0 p1 n = .ok tab) (r : ℝ)
    (hr0 : 0 ≤ r) (hr1 : r < 1) (s : List ℝ) :
    ∃ (i : Nat) (x : ℝ), cdfCos tab (r :: s) = .ok (x, s) ∧ i + 1 < n ∧ cosAt n i ≤ x ∧ x < cosAt n (i + 1) ∧
      (∀ j, j ≤ i → preeqSum p0 p1 n j / preeqSum p0 p1 n (n - 1) ≤ r) ∧
      r < preeqSum p0 p1 n (i + 1) / preeqSum p0 p1 n (n - 1) ∧
      x = cosAt n i + (cosAt n (i + 1) - cosAt n i) * ((r - preeqSum p0 p1 n i / preeqSum p0 p1 n (n - 1)) /
        (preeqSum p0 p1 n (i + 1) / preeqSum p0 p1 n (n - 1) - preeqSum p0 p1 n i / preeqSum p0 p1 n (n - 1))) := by
  obtain ⟨h0, h2, h3⟩ := rows_at h
  set F : Nat → ℝ := fun k => preeqSum p0 p1 n k / preeqSum p0 p1 n (n - 1) with hF
  have f0 : tab[0]? = some (cosAt n 0, F 0) := (h3 0 _).mpr ⟨by omega, rfl⟩
  have fl : tab[n - 1]? = some (cosAt n (n - 1), F (n - 1)) := (h3 (n - 1) _).mpr ⟨by omega, rfl⟩
  have c0 : F 0 = 0 := by simp [hF, preeqSum]
  have cl : F (n - 1) = 1 := by simp only [hF]; exact div_self h0
  match tab, h2, h3, f0, fl with
  | [], h2, _, _, _ => simp at h2; omega
  | a :: t, h2, h3, f0, fl =>
      have ha : a = (cosAt n 0, F 0) := by simpa using f0
      have ht : t ≠ [] := by intro h; rw [h] at h2; simp at h2; omega
      obtain ⟨i, x, y, g1, g2, g3, g4, g5⟩ := cdfScan_first r t a none ht (by rw [ha, c0]; exact hr0) (by
        intro z hz
        rw [List.getLast?_eq_getElem?, h2, fl] at hz
        have hz : (cosAt n (n - 1), F (n - 1)) = z := by simpa using hz
        rw [← hz]
        simp only []
        rw [cl]
        exact hr1)
      rw [h3] at g1 g2
      obtain ⟨i1, rfl⟩ := g1
      obtain ⟨i2, rfl⟩ := g2
      have g4' : ∀ j, j ≤ i → F j ≤ r := fun j hj => g4 j (cosAt n j, F j) hj ((h3 j _).mpr ⟨by omega, rfl⟩)
      have g3' : r < F (i + 1) := g3
      have hi := g4' i le_rfl
      have hd : 0 < F (i + 1) - F i := by linarith
      have hx := cosAt_mono (n := n) (by omega) (show i < i + 1 by omega)
      have hrun : cdfCos (a :: t) (r :: s) = .ok (((cosAt n (i + 1) - cosAt n i) * r
          - F i * cosAt n (i + 1) + F (i + 1) * cosAt n i) / (F (i + 1) - F i), s) := by
        unfold cdfCos
        rw [Rnd.bind_of_ok (Rnd.draw_cons r s), Rnd.bind_of_ok (Rnd.get_ok.mpr ⟨g5, rfl⟩)]
        rw [Rnd.bind_of_ok (show needs (F (i + 1) - F i ≠ 0) s = .ok ((), s) by
          unfold needs; rw [if_pos hd.ne'])]
        rfl
      refine ⟨i, _, hrun, i2, ?_, ?_, g4', g3', ?_⟩
      · rw [le_div_iff₀ hd]; nlinarith
      · rw [div_lt_iff₀ hd]; nlinarith
      · show _ = cosAt n i + (cosAt n (i + 1) - cosAt n i) * ((r - F i) / (F (i + 1) - F i))
        field_simp
        ring

/-- **C112.** For every table that exists, decreasing or not, and every random number in `[0, 1)`, the cosine exists, lies
in `[-1, 1)`, so that the direction of the neutron is defined, and is below the cosine of row `k` exactly when the random
number is below one of the rows up to `k`. -/
theorem C112_sampled (p0 p1 : ℝ) (n : Nat) (hn : 2 ≤ n) (tab : List (ℝ × ℝ)) (h : preeqRows p0 p1 n = .ok tab) (r : ℝ)
    (hr0 : 0 ≤ r) (hr1 : r < 1) (s : List ℝ) :
    ∃ x, cdfCos tab (r :: s) = .ok (x, s) ∧ -1 ≤ x ∧ x < 1 ∧
      ∀ k, k < n → (x < cosAt n k ↔ ∃ (j : Nat) (c : ℝ × ℝ), j ≤ k ∧ tab[j]? = some c ∧ r < c.2) := by
  obtain ⟨i, x, g1, g2, g3, g4, g5, g6, -⟩ := preeq_segment hn h r hr0 hr1 s
  obtain ⟨-, -, h3⟩ := rows_at h
  refine ⟨x, g1, le_trans (cosAt_range hn (by omega)).1 g3, lt_of_lt_of_le g4 (cosAt_range hn g2).2, ?_⟩
  intro k hk
  constructor
  · intro hx
    have hik : i < k := by
      by_contra hcon
      rcases Nat.eq_or_lt_of_le (not_lt.mp hcon) with h' | h'
      · rw [h'] at hx; linarith
      · have := cosAt_mono (n := n) hn h'; linarith
    exact ⟨i + 1, _, hik, (h3 _ _).mpr ⟨g2, rfl⟩, g6⟩
  · rintro ⟨j, c, hj, hc, hr⟩
    rw [h3] at hc
    obtain ⟨hj', rfl⟩ := hc
    have hik : i < k := by
      by_contra hcon
      have := g5 j (by omega)
      linarith
    rcases Nat.eq_or_lt_of_le (show i + 1 ≤ k from hik) with h' | h'
    · rw [← h']; exact g4
    · exact lt_trans g4 (cosAt_mono hn h')

theorem fit_nonneg {p0 p1 : ℝ} (h : |p0| * Real.sinh 1 ≤ p1) {x : ℝ} (h0 : -1 ≤ x) (h1 : x ≤ 1) : 0 ≤ fit p0 p1 x := by
  have a1 : Real.sinh x ≤ Real.sinh 1 := Real.sinh_le_sinh.2 h1
  have a2 : -Real.sinh 1 ≤ Real.sinh x := by rw [← Real.sinh_neg]; exact Real.sinh_le_sinh.2 h0
  have a3 : |p0 * Real.sinh x| ≤ |p0| * Real.sinh 1 := by
    rw [abs_mul]; exact mul_le_mul_of_nonneg_left (abs_le.2 ⟨a2, a1⟩) (abs_nonneg _)
  have := (abs_le.1 a3).1
  unfold fit
  linarith

theorem sinh_one_pos : 0 < Real.sinh 1 := Real.sinh_pos_iff.2 one_pos

theorem total_pos {p0 p1 : ℝ} (h : |p0| * Real.sinh 1 ≤ p1) (hne : ¬ (p0 = 0 ∧ p1 = 0)) {n : Nat} (hn : 3 ≤ n) :
    0 < p0 * Real.sinh 1 + ((n : ℝ) - 1) * p1 := by
  have hn' : (3 : ℝ) ≤ n := by exact_mod_cast hn
  have hs := sinh_one_pos
  have h1 : 0 ≤ |p0| * Real.sinh 1 := mul_nonneg (abs_nonneg _) hs.le
  have h2 : 0 < p1 := by
    rcases lt_or_eq_of_le (h1.trans h) with h' | h'
    · exact h'
    · exfalso
      apply hne
      rw [← h'] at h
      have : |p0| = 0 := by
        by_contra hc
        have := mul_pos (lt_of_le_of_ne (abs_nonneg p0) (Ne.symm hc)) hs
        linarith
      exact ⟨abs_eq_zero.1 this, h'.symm⟩
  have h3 : -(|p0| * Real.sinh 1) ≤ p0 * Real.sinh 1 := by
    have := mul_le_mul_of_nonneg_right (neg_abs_le p0) hs.le
    linarith
  nlinarith

theorem share_mono {p0 p1 : ℝ} (h : |p0| * Real.sinh 1 ≤ p1) (hne : ¬ (p0 = 0 ∧ p1 = 0)) {n : Nat} (hn : 3 ≤ n) {i j : Nat}
    (hij : i ≤ j) (hj : j < n) : share p0 p1 n i ≤ share p0 p1 n j := by
  unfold share
  apply div_le_div_of_nonneg_right _ (by rw [total_eq (by omega)]; exact (total_pos h hne hn).le)
  apply Finset.sum_le_sum_of_subset_of_nonneg
  · intro a ha
    simp only [Finset.mem_range] at *
    omega
  · intro a ha _
    have := Finset.mem_range.1 ha
    obtain ⟨u, v⟩ := cosAt_range (n := n) (k := a + 1) (by omega) (by omega)
    exact fit_nonneg h u v

/-- **C112.** When the fitted density is nowhere negative (`|p0| sinh 1 ≤ p1`, not both zero) the table exists and is
inverted: the cosine is below that of row `k` exactly when the random number is below the part of the fitted density in the
first `k` intervals; these parts start at zero, do not decrease and end at one. -/
theorem C112_law_partial (p0 p1 : ℝ) (h : |p0| * Real.sinh 1 ≤ p1) (hne : ¬ (p0 = 0 ∧ p1 = 0)) (n : Nat) (hn : 3 ≤ n) :
    ∃ tab, preeqRows p0 p1 n = .ok tab ∧ share p0 p1 n 0 = 0 ∧ share p0 p1 n (n - 1) = 1 ∧
      (∀ i j, i ≤ j → j < n → share p0 p1 n i ≤ share p0 p1 n j) ∧
      ∀ (r : ℝ) (s : List ℝ), 0 ≤ r → r < 1 → ∃ x, cdfCos tab (r :: s) = .ok (x, s) ∧ -1 ≤ x ∧ x < 1 ∧
        ∀ k, k < n → (x < cosAt n k ↔ r < share p0 p1 n k) := by
  have ht := total_pos h hne hn
  obtain ⟨tab, htab⟩ := (C112_defined p0 p1 n (by omega)).1.2 (Or.inr ht.ne')
  refine ⟨tab, htab, by simp [share], ?_, fun i j => share_mono h hne hn, ?_⟩
  · unfold share
    apply div_self
    rw [total_eq (by omega)]
    exact ht.ne'
  · intro r s hr0 hr1
    obtain ⟨x, x1, x2, x3, x4⟩ := C112_sampled p0 p1 n (by omega) tab htab r hr0 hr1 s
    refine ⟨x, x1, x2, x3, ?_⟩
    intro k hk
    rw [x4 k hk]
    obtain ⟨-, -, h3⟩ := rows_at htab
    have e : ∀ j, preeqSum p0 p1 n j / preeqSum p0 p1 n (n - 1) = share p0 p1 n j := by
      intro j; rw [preeqSum_eq hne, preeqSum_eq hne]; rfl
    constructor
    · rintro ⟨j, c, hj, hc, hr⟩
      rw [h3] at hc
      obtain ⟨hj', rfl⟩ := hc
      simp only [e] at hr
      exact lt_of_lt_of_le hr (share_mono h hne hn hj hk)
    · intro hr
      exact ⟨k, _, le_rfl, (h3 _ _).mpr ⟨hk, rfl⟩, by simp only [e]; exact hr⟩

/-- **C112.** With `p0 ≥ 0` the neutrons go forward at least as often as backward: the chance of a cosine below row `k`
is at most that of one not below the mirrored row. -/
theorem C112_forward (p0 p1 : ℝ) (hp : 0 ≤ p0) (h : |p0| * Real.sinh 1 ≤ p1) (hne : ¬ (p0 = 0 ∧ p1 = 0)) (n : Nat)
    (hn : 3 ≤ n) (k : Nat) (hk : k < n) : share p0 p1 n k ≤ 1 - share p0 p1 n (n - 1 - k) := by
  have ht := total_pos h hne hn
  have ht' : 0 < ∑ i ∈ Finset.range (n - 1), fit p0 p1 (cosAt n (i + 1)) := by rw [total_eq (by omega)]; exact ht
  unfold share
  rw [le_sub_iff_add_le, ← add_div, div_le_one ht']
  have e : n - 1 = (n - 1 - k) + k := by omega
  have : ∑ i ∈ Finset.range (n - 1), fit p0 p1 (cosAt n (i + 1)) =
      ∑ i ∈ Finset.range (n - 1 - k), fit p0 p1 (cosAt n (i + 1)) +
        ∑ i ∈ Finset.range k, fit p0 p1 (cosAt n (n - 1 - k + i + 1)) := by
    conv_lhs => rw [e, Finset.sum_range_add]
  rw [this, add_comm]
  gcongr with i hi
  have hi' := Finset.mem_range.1 hi
  unfold fit
  have hc : cosAt (K := ℝ) n (i + 1) ≤ cosAt n (n - 1 - k + i + 1) := by
    rcases Nat.eq_or_lt_of_le (show i + 1 ≤ n - 1 - k + i + 1 by omega) with h' | h'
    · rw [← h']
    · exact (cosAt_mono (by omega) h').le
  have := mul_le_mul_of_nonneg_left (Real.sinh_le_sinh.2 hc) hp
  linarith

theorem cosAt_step {n : Nat} (i : Nat) : cosAt (K := ℝ) n (i + 1) - cosAt n i = 2 / ((n : ℝ) - 1) := by
  unfold cosAt
  push_cast
  ring

/-- **C112.** Without asymmetry (`p0 = 0`) the cosine is uniform, whatever the sign of `p1`. -/
theorem C112_isotropic (p1 : ℝ) (hp : p1 ≠ 0) (n : Nat) (hn : 2 ≤ n) (r : ℝ) (hr0 : 0 ≤ r) (hr1 : r < 1) (s : List ℝ) :
    ∃ tab, preeqRows 0 p1 n = .ok tab ∧ cdfCos tab (r :: s) = .ok (2 * r - 1, s) := by
  have hn' : (0 : ℝ) < (n : ℝ) - 1 := by
    have : (2 : ℝ) ≤ n := by exact_mod_cast hn
    linarith
  obtain ⟨tab, htab⟩ := (C112_defined 0 p1 n hn).1.2 (Or.inr (by
    rw [zero_mul, zero_add]; exact mul_ne_zero hn'.ne' hp))
  refine ⟨tab, htab, ?_⟩
  obtain ⟨i, x, g1, g2, -, -, -, -, g7⟩ := preeq_segment hn htab r hr0 hr1 s
  have e : ∀ k, preeqSum 0 p1 n k = k * p1 := by
    intro k
    rw [preeqSum_eq (fun h => hp h.2)]
    simp [fit]
  rw [g1, g7, cosAt_step, e, e, e, Nat.cast_sub (by omega), Nat.cast_one]
  congr 2
  unfold cosAt
  push_cast
  field_simp
  ring

/-- **C112, refuted for vanishing parameters.** When both parameters are zero the table is one from the second row on, and
the neutron is sent backward, into the first interval. -/
theorem C112_zero (n : Nat) (hn : 2 ≤ n) (r : ℝ) (hr0 : 0 ≤ r) (hr1 : r < 1) (s : List ℝ) :
    ∃ tab, preeqRows 0 0 n = .ok tab ∧ cdfCos tab (r :: s) = .ok (-1 + 2 / ((n : ℝ) - 1) * r, s) := by
  obtain ⟨tab, htab⟩ := (C112_defined 0 0 n hn).1.2 (Or.inl ⟨rfl, rfl⟩)
  refine ⟨tab, htab, ?_⟩
  obtain ⟨i, x, g1, g2, -, -, g5, g6, g7⟩ := preeq_segment hn htab r hr0 hr1 s
  have hl : preeqSum 0 0 n (n - 1) = 1 := by
    obtain ⟨m, rfl⟩ : ∃ m, n = m + 2 := ⟨n - 2, by omega⟩
    exact preeqSum_zero _ m
  have hi : i = 0 := by
    by_contra hc
    obtain ⟨m, rfl⟩ : ∃ m, i = m + 1 := ⟨i - 1, by omega⟩
    have := g5 (m + 1) le_rfl
    rw [hl, preeqSum_zero] at this
    linarith
  subst hi
  rw [g1, g7, cosAt_step, cosAt_zero, hl, preeqSum_zero]
  simp [preeqSum]

/-- `sinh x - x` adds up to at most zero over the first rows. -/
theorem sinh_rows {n : Nat} (hn : 2 ≤ n) (k : Nat) (hk : k ≤ n - 2) :
    ∑ i ∈ Finset.range k, Real.sinh (cosAt n (i + 1)) ≤ ∑ i ∈ Finset.range k, cosAt n (i + 1) := by
  have hneg : ∀ x : ℝ, x ≤ 0 → Real.sinh x - x ≤ 0 := fun x hx => by
    have := Real.sinh_le_self_iff.2 hx; linarith
  have hpos : ∀ x : ℝ, 0 ≤ x → 0 ≤ Real.sinh x - x := fun x hx => by
    have := Real.self_le_sinh_iff.2 hx; linarith
  have htot : ∑ i ∈ Finset.range (n - 2), (Real.sinh (cosAt n (i + 1)) - cosAt n (i + 1)) = 0 := by
    have h1 := odd_sum (fun x => Real.sinh x - x) (fun x => by simp only [Real.sinh_neg]; ring) hn
    obtain ⟨m, rfl⟩ : ∃ m, n = m + 2 := ⟨n - 2, by omega⟩
    have h2 : cosAt (K := ℝ) (m + 2) (m + 1) = 1 := cosAt_last (n := m + 2) (by omega)
    change ∑ i ∈ Finset.range (m + 1), _ = _ at h1
    rw [Finset.sum_range_succ, h2] at h1
    show ∑ i ∈ Finset.range m, _ = _
    linarith
  rw [← sub_nonpos, ← Finset.sum_sub_distrib]
  by_cases hc : cosAt (K := ℝ) n k ≤ 0
  · apply Finset.sum_nonpos
    intro i hi
    have hi' := Finset.mem_range.1 hi
    apply hneg
    rcases Nat.eq_or_lt_of_le (show i + 1 ≤ k by omega) with h' | h'
    · rw [h']; exact hc
    · exact (cosAt_mono hn h').le.trans hc
  · rw [← htot]
    apply Finset.sum_le_sum_of_subset_of_nonneg
    · intro a ha
      simp only [Finset.mem_range] at *
      omega
    · intro a _ ha
      apply hpos
      have ha' : k ≤ a := by simpa using ha
      exact (not_le.1 hc).le.trans (cosAt_mono hn (show k < a + 1 by omega)).le

theorem cosAt_sum {n : Nat} (hn : 2 ≤ n) (k : Nat) :
    ∑ i ∈ Finset.range k, cosAt (K := ℝ) n (i + 1) = k * ((k : ℝ) + 2 - n) / ((n : ℝ) - 1) := by
  have hn' : (n : ℝ) - 1 ≠ 0 := by
    have : (2 : ℝ) ≤ n := by exact_mod_cast hn
    linarith
  induction k with
  | zero => simp
  | succ k ih =>
      rw [Finset.sum_range_succ, ih]
      unfold cosAt
      push_cast
      field_simp
      ring

/-- **C112, refuted for a fit that is negative backward.** When the fit is negative for backward angles and its sum is
positive, no random number gives a cosine below row `k` for any `k` with `p1 (n - 1) ≤ p0 (n - 2 - k)`, although the fitted
density may be positive there. -/
theorem C112_gap (p0 p1 : ℝ) (hp : 0 < p0) (n : Nat) (hn : 2 ≤ n) (ht : 0 < p0 * Real.sinh 1 + ((n : ℝ) - 1) * p1) (k : Nat)
    (hk : k ≤ n - 2) (hgap : p1 * ((n : ℝ) - 1) ≤ p0 * ((n : ℝ) - 2 - k)) (tab : List (ℝ × ℝ))
    (h : preeqRows p0 p1 n = .ok tab) (r : ℝ) (hr0 : 0 ≤ r) (hr1 : r < 1) (s : List ℝ) :
    ∃ x, cdfCos tab (r :: s) = .ok (x, s) ∧ cosAt n k ≤ x ∧ x < 1 := by
  obtain ⟨x, x1, x2, x3, x4⟩ := C112_sampled p0 p1 n hn tab h r hr0 hr1 s
  refine ⟨x, x1, ?_, x3⟩
  by_contra hc
  obtain ⟨j, c, hj, hcc, hr⟩ := (x4 k (by omega)).1 (not_le.1 hc)
  obtain ⟨-, -, h3⟩ := rows_at h
  rw [h3] at hcc
  obtain ⟨hj', rfl⟩ := hcc
  have hne : ¬ (p0 = 0 ∧ p1 = 0) := fun hh => hp.ne' hh.1
  rw [preeqSum_eq hne, preeqSum_eq hne, total_eq hn] at hr
  have hn' : (0 : ℝ) < (n : ℝ) - 1 := by
    have : (2 : ℝ) ≤ n := by exact_mod_cast hn
    linarith
  have hs : ∑ i ∈ Finset.range j, fit p0 p1 (cosAt n (i + 1)) ≤ 0 := by
    unfold fit
    rw [Finset.sum_add_distrib, ← Finset.mul_sum, Finset.sum_const, Finset.card_range, nsmul_eq_mul]
    have h1 := mul_le_mul_of_nonneg_left (sinh_rows hn j (by omega)) hp.le
    rw [cosAt_sum hn] at h1
    have h2 : (j : ℝ) ≤ k := by exact_mod_cast hj
    have h4 : p1 ≤ p0 * ((n : ℝ) - 2 - j) / ((n : ℝ) - 1) := by
      rw [le_div_iff₀ hn']
      have := mul_le_mul_of_nonneg_left h2 hp.le
      linarith
    have h5 := mul_le_mul_of_nonneg_left h4 (Nat.cast_nonneg (α := ℝ) j)
    have h6 : p0 * (j * ((j : ℝ) + 2 - n) / ((n : ℝ) - 1)) + j * (p0 * ((n : ℝ) - 2 - j) / ((n : ℝ) - 1)) = 0 := by
      field_simp
      ring
    linarith
  have := div_nonpos_of_nonpos_of_nonneg hs ht.le
  linarith

/-- The coefficients in data/preeq-scattering-params.dat. -/
noncomputable def shipped : Fin 2 → Fin 4 → Fin 6 → ℝ :=
  ![![![2.27554291, -1.11511434, 0.188995865, -0.0328402201, 0.00413735891, -0.000175903501],
      ![-0.312633022, 0.0997041269, 0.00966103676, -0.00195973335, -0.000146357562, 0.0000155435487],
      ![0.0199321109, -0.00497819514, -0.0016564762, 0.000381266892, -0.0000145337363, -0.000000246164195],
      ![-0.00050585819, 0.000154683639, 0.0000309568583, -0.00000955871564, 0.000000547956806, -0.00000000402351241]],
    ![![2.20666902, -0.658802394, -0.00483550509, -0.00936250726, 0.00326825686, -0.000175721329],
      ![-0.21048786, -0.0467615105, 0.0667402375, -0.00968451678, 0.000253355861, 0.00000936969802],
      ![0.0138626853, 0.00418467334, -0.00541586784, 0.000925968964, -0.0000455993276, 0.000000329557966],
      ![-0.00042438478, -0.0000038241613, 0.000102533599, -0.0000206128268, 0.00000121881207, -0.0000000175265557]]]

theorem powers_eq (u : Fin 6 → ℝ) (e : ℝ) :
    powers u e = u 0 + u 1 * e + u 2 * e ^ 2 + u 3 * e ^ 3 + u 4 * e ^ 4 + u 5 * e ^ 5 := by
  unfold powers
  simp [List.finRange_succ, List.foldl]

theorem shipped_p0 : 78 / 10000 < fitParam (shipped 0) (35 / 2) 18 ∧ fitParam (shipped 0) (35 / 2) 18 < 79 / 10000 := by
  unfold fitParam
  simp only [powers_eq]
  simp [shipped]
  norm_num

theorem shipped_p1 : 6 / 10000 < fitParam (shipped 1) (35 / 2) 18 ∧ fitParam (shipped 1) (35 / 2) 18 < 62 / 100000 := by
  unfold fitParam
  simp only [powers_eq]
  simp [shipped]
  norm_num

/-- **C112, refuted for the shipped parameters.** For 18 MeV incident energy and a residual excitation of 17.5 MeV the
fitted density is positive at right angles, but every sampled cosine is at least 39/49 (37 degrees). -/
theorem C112_refuted : 0 < fit (fitParam (shipped 0) (35 / 2) 18) (fitParam (shipped 1) (35 / 2) 18) 0 ∧
    ∃ tab, preeqTable shipped (35 / 2) 18 50 = .ok tab ∧ ∀ (r : ℝ) (s : List ℝ), 0 ≤ r → r < 1 →
      ∃ x, cdfCos tab (r :: s) = .ok (x, s) ∧ 39 / 49 ≤ x ∧ x < 1 := by
  obtain ⟨a1, a2⟩ := shipped_p0
  obtain ⟨b1, b2⟩ := shipped_p1
  have hs := sinh_one_pos
  have ht : 0 < fitParam (shipped 0) (35 / 2) 18 * Real.sinh 1 + ((50 : Nat) - 1 : ℝ) * fitParam (shipped 1) (35 / 2) 18 := by
    have h1 : 0 < fitParam (shipped 0) (35 / 2) 18 * Real.sinh 1 := mul_pos (by linarith) hs
    push_cast
    linarith
  refine ⟨by unfold fit; rw [Real.sinh_zero]; linarith, ?_⟩
  obtain ⟨tab, htab⟩ := (C112_defined (fitParam (shipped 0) (35 / 2) 18) (fitParam (shipped 1) (35 / 2) 18) 50
    (by norm_num)).1.2 (Or.inr ht.ne')
  refine ⟨tab, htab, ?_⟩
  intro r s hr0 hr1
  obtain ⟨x, x1, x2, x3⟩ := C112_gap _ _ (by linarith) 50 (by norm_num) ht 44 (by norm_num) (by push_cast; linarith) tab htab r
    hr0 hr1 s
  refine ⟨x, x1, ?_, x3⟩
  have : cosAt (K := ℝ) 50 44 = 39 / 49 := by unfold cosAt; norm_num
  rwa [this] at x2

/-- The parameters at 12 MeV and 8 MeV residual excitation, rounded, with 50 rows: the fit is nowhere negative. -/
example : ∃ tab, preeqRows (63 / 1000) (123 / 1000) 50 = .ok tab ∧ ∃ x, cdfCos tab [1 / 3] = .ok (x, []) ∧ -1 ≤ x ∧ x < 1 := by
  have hs : Real.sinh 1 ≤ 3 / 2 := by
    rw [Real.sinh_eq]
    have h1 := Real.exp_one_lt_d9
    have h2 := Real.exp_pos (-1)
    linarith
  obtain ⟨tab, h1, -, -, -, h2⟩ := C112_law_partial (63 / 1000) (123 / 1000) (by
    rw [abs_of_pos (by norm_num)]; linarith) (by norm_num) 50 (by norm_num)
  obtain ⟨x, x1, x2, x3, -⟩ := h2 (1 / 3) [] (by norm_num) (by norm_num)
  exact ⟨tab, h1, x, x1, x2, x3⟩

/-- The same parameters: forward at least as often as backward. -/
example : share (63 / 1000) (123 / 1000) 50 24 ≤ 1 - share (63 / 1000) (123 / 1000) 50 25 := by
  have hs : Real.sinh 1 ≤ 3 / 2 := by
    rw [Real.sinh_eq]
    have h1 := Real.exp_one_lt_d9
    have h2 := Real.exp_pos (-1)
    linarith
  exact C112_forward _ _ (by norm_num) (by rw [abs_of_pos (by norm_num)]; linarith) (by norm_num) 50 (by norm_num) 24
    (by norm_num)

/-- Isotropic, 50 rows. -/
example : ∃ tab, preeqRows 0 (-2) 50 = .ok tab ∧ cdfCos tab [1 / 4] = .ok (2 * (1 / 4) - 1, []) :=
  C112_isotropic (-2) (by norm_num) 50 (by norm_num) (1 / 4) (by norm_num) (by norm_num) []

end CGMF.Props

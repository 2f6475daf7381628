import Verif.Proofs.Grid

/-!
# C25: the continuum energy grid
-/

namespace CGMF.Props

open CGMF CGMF.Grid

variable {K : Type} [Field K] [LinearOrder K] [IsStrictOrderedRing K]

/-- **C25.**  For every bin width `w`, array size `N`, excitation energy `E` of at least half a bin
and highest level energy `el`: either the process stops, which happens exactly when the energy does
not fit the `N` bins, or the grid starts at `E`, descends in steps of `w`, ends with a zero entry
inside the array, every continuum bin lies at or above the highest level, and the bin after the last
continuum bin is the first one that does not. -/
theorem C25_grid (w : K) (hw : 0 < w) (N : Nat) (E el : K) (hE : w / 2 ≤ E) (hel : 0 ≤ el) :
    (setup w N el E = .exit ∧ (N = 0 ∨ w * ((N : K) - 1 / 2) ≤ E)) ∨
    ∃ m, setup w N el E = .ok m ∧ E < w * ((N : K) - 1 / 2) ∧
      2 ≤ m.ntotal ∧ m.ntotal ≤ N ∧ m.ncont < m.ntotal ∧
      m.exc 0 = E ∧
      (∀ k, k + 1 < m.ntotal → m.exc k = E - k * w ∧ w / 2 ≤ m.exc k) ∧
      (∀ k, k + 1 < m.ntotal → m.exc (k + 1) < m.exc k) ∧
      m.exc (m.ntotal - 1) = 0 ∧
      (∀ k ≤ m.ncont, 0 < m.ncont → el ≤ m.exc k) ∧
      (el ≠ 0 → el < E → m.exc (m.ncont + 1) < el ∧ m.ncont + 1 < m.ntotal) ∧
      (E ≤ el → 0 < el → m.ncont = 0) := by
  cases hs : setup w N el E with
  | ub => exact absurd hs setup_not_ub
  | exit =>
    left
    refine ⟨rfl, ?_⟩
    rw [setup_exit_iff] at hs
    rcases Nat.eq_zero_or_pos N with h | h
    · exact Or.inl h
    · right
      have := hs (N - 1) (by omega)
      rw [Nat.cast_sub h] at this
      calc w * ((N : K) - 1 / 2) = w * (((N : K) - ((1 : Nat) : K)) + 1 / 2) := by push_cast; ring
        _ ≤ E := this
  | ok m =>
    right
    obtain ⟨f, f1, f2, f3, f4, f5, f6⟩ := setup_ok hs
    have hf : 1 ≤ f := by
      rcases Nat.eq_zero_or_pos f with h | h
      · subst h
        norm_num at f2
        linarith
      · exact h
    have hlast : excOf w E (f + 1) f = 0 := excOf_last _ _ le_rfl
    obtain ⟨n1, n2, n3, n4, n5⟩ := ncontOf_spec (E := E) hel hlast
    rw [← f6, ← f5] at n3 n5
    rw [← f6] at n1 n2 n4
    have hval : ∀ k, k + 1 < m.ntotal → m.exc k = E - k * w ∧ w / 2 ≤ m.exc k := by
      intro k hk
      have hk' : k + 1 < f + 1 := by omega
      have e : m.exc k = E - k * w := by rw [f5, excOf_eq _ _ hk']
      refine ⟨e, ?_⟩
      have := f3 k (by omega)
      rw [e]; linarith
    have h0 : m.exc 0 = E := by
      have := (hval 0 (by omega)).1
      simpa using this
    refine ⟨m, rfl, ?_, by omega, by omega, by omega, h0, hval, ?_, ?_, ?_, ?_, ?_⟩
    · have : (f : K) + 1 / 2 ≤ (N : K) - 1 / 2 := by
        have : ((f + 1 : Nat) : K) ≤ (N : K) := by exact_mod_cast f1
        push_cast at this
        linarith
      exact lt_of_lt_of_le f2 (mul_le_mul_of_nonneg_left this hw.le)
    · intro k hk
      rcases Nat.lt_or_ge (k + 2) m.ntotal with h | h
      · rw [(hval k hk).1, (hval (k + 1) h).1]
        push_cast; linarith
      · have : m.exc (k + 1) = 0 := by rw [f5]; exact excOf_last _ _ (by omega)
        rw [this]
        have := (hval k hk).2
        linarith
    · rw [f4, f5]; exact hlast
    · intro k hk hc
      by_cases hz : el = 0
      · rw [hz]
        rcases Nat.lt_or_ge (k + 1) m.ntotal with h | h
        · have := (hval k h).2; linarith
        · rw [f5, excOf_last _ _ (by omega)]
      · rcases Nat.eq_zero_or_pos k with h | h
        · subst h; rw [h0]; exact (n2 hc hz).le
        · exact n3 k h hk hz
    · intro hz hlt
      obtain ⟨a, b⟩ := n5 hz hlt hf
      exact ⟨b, by omega⟩
    · intro hle hpos
      by_contra hc
      exact absurd (n2 (Nat.pos_of_ne_zero hc) hpos.ne') (not_lt.mpr hle)

/-- C25: below half a bin width the grid collapses: one bin whose energy is zero, not `E`. -/
theorem C25_low_energy (w : K) (hw : 0 < w) (N : Nat) (hN : 0 < N) (E el : K) (hE : E < w / 2)
    (hel : 0 ≤ el) :
    ∃ m, setup w N el E = .ok m ∧ m.ntotal = 1 ∧ m.ncont = 0 ∧ ∀ k, m.exc k = 0 := by
  cases hs : setup w N el E with
  | ub => exact absurd hs setup_not_ub
  | exit =>
    rw [setup_exit_iff] at hs
    have := hs 0 hN
    norm_num at this
    linarith
  | ok m =>
    obtain ⟨f, f1, f2, f3, f4, f5, f6⟩ := setup_ok hs
    have hf : f = 0 := by
      by_contra h
      have := f3 0 (Nat.pos_of_ne_zero h)
      norm_num at this
      linarith
    subst hf
    have hlast : excOf w E (0 + 1) 0 = 0 := excOf_last _ _ le_rfl
    obtain ⟨n1, -⟩ := ncontOf_spec (E := E) hel hlast
    refine ⟨m, rfl, f4, by omega, ?_⟩
    intro k
    rw [f5, excOf_last _ _ (by omega)]

/-- A 6 MeV fragment with levels up to 2 MeV on CGMF's grid (bins of 50 keV, 2500 of them). -/
example : ∃ m, setup (1 / 20 : ℚ) 2500 2 6 = .ok m ∧ m.exc 0 = 6 ∧ m.exc 3 = 6 - 3 / 20 := by
  rcases C25_grid (1 / 20 : ℚ) (by norm_num) 2500 6 2 (by norm_num) (by norm_num) with h | h
  · exfalso
    rcases h.2 with h | h <;> norm_num at h
  · obtain ⟨m, h1, -, h2, h3, h4, h5, h6, h7, h8, h9, h10, -⟩ := h
    refine ⟨m, h1, h5, ?_⟩
    have h11 : 3 + 1 < m.ntotal := by
      by_contra hc
      have hn := (h10 (by norm_num) (by norm_num)).2
      have h0 := (h10 (by norm_num) (by norm_num)).1
      have hk : m.ncont + 1 < 4 := by omega
      have hn2 := (h6 (m.ncont)  (by omega)).1
      have hlt : ((m.ncont : ℚ)) ≤ 2 := by
        have : m.ncont ≤ 2 := by omega
        exact_mod_cast this
      rcases Nat.lt_or_ge (m.ncont + 1 + 1) m.ntotal with h | h
      · have := (h6 (m.ncont + 1) h).1
        rw [this] at h0
        push_cast at h0
        linarith
      · obtain ⟨f, f1, f2, f3, f4, f5, f6⟩ := setup_ok h1
        have : (f : ℚ) ≤ 3 := by
          have : f ≤ 3 := by omega
          exact_mod_cast this
        linarith
    have := (h6 3 h11).1
    rw [this]; norm_num

example : ∃ m, setup (1 / 20 : ℚ) 2500 2 (1 / 50) = .ok m ∧ m.exc 0 = 0 := by
  obtain ⟨m, h1, -, -, h2⟩ :=
    C25_low_energy (1 / 20 : ℚ) (by norm_num) 2500 (by norm_num) (1 / 50) 2 (by norm_num) (by norm_num)
  exact ⟨m, h1, h2 0⟩

end CGMF.Props

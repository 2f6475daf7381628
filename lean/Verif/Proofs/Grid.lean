import Verif.Model.Grid

/-! # Lemmas about the continuum grid -/

namespace CGMF.Grid

variable {K : Type} [Field K] [LinearOrder K] [IsStrictOrderedRing K]

theorem binEnergy_eq (w : K) (k : Nat) : binEnergy w k = w * (k + 1 / 2) := by
  induction k with
  | zero => simp [binEnergy]
  | succ k ih => rw [binEnergy, ih]; push_cast; ring

theorem excOf_eq (w E : K) {n k : Nat} (h : k + 1 < n) : excOf w E n k = E - k * w := by
  rw [excOf, if_pos h, binEnergy_eq]; ring

theorem excOf_last (w E : K) {n k : Nat} (h : n ≤ k + 1) : excOf w E n k = 0 := by
  rw [excOf, if_neg (by omega)]

theorem find_range_some {N k : Nat} {p : Nat → Bool} (h : (List.range N).find? p = some k) :
    k < N ∧ p k = true ∧ ∀ j < k, p j = false := by
  rw [List.find?_range_eq_some] at h
  obtain ⟨h1, h2, h3⟩ := h
  exact ⟨by simpa using h2, h1, fun j hj => by simpa using h3 j hj⟩

theorem find_range_none {N : Nat} {p : Nat → Bool} (h : (List.range N).find? p = none) :
    ∀ j < N, p j = false := by
  rw [List.find?_eq_none] at h
  intro j hj
  simpa using h j (by simpa using hj)

theorem find_range'_some {s n k : Nat} {p : Nat → Bool}
    (h : (List.range' s n).find? p = some k) :
    s ≤ k ∧ k < s + n ∧ p k = true ∧ ∀ j, s ≤ j → j < k → p j = false := by
  rw [List.find?_range'_eq_some] at h
  obtain ⟨h1, h2, h3⟩ := h
  rw [List.mem_range'_1] at h2
  exact ⟨h2.1, h2.2, h1, fun j hj hk => by simpa using h3 j hj hk⟩

theorem find_range'_none {s n : Nat} {p : Nat → Bool} (h : (List.range' s n).find? p = none) :
    ∀ j, s ≤ j → j < s + n → p j = false := by
  rw [List.find?_eq_none] at h
  intro j hj hk
  simpa using h j (by rw [List.mem_range'_1]; exact ⟨hj, hk⟩)

/-- What `setup` returns. -/
theorem setup_ok {w el E : K} {N : Nat} {m : Mesh K} (h : setup w N el E = .ok m) :
    ∃ f, f < N ∧ E < w * (f + 1 / 2) ∧ (∀ j < f, w * ((j : K) + 1 / 2) ≤ E) ∧ m.ntotal = f + 1 ∧
      m.exc = excOf w E (f + 1) ∧ m.ncont = ncontOf E el (f + 1) (excOf w E (f + 1)) := by
  unfold setup at h
  obtain ⟨f, hf, h⟩ := Res.bind_eq_ok.mp h
  unfold firstAbove at hf
  split at hf
  · rename_i k hk
    obtain ⟨h1, h2, h3⟩ := find_range_some hk
    cases hf
    cases h
    refine ⟨f, h1, ?_, ?_, rfl, rfl, rfl⟩
    · simpa [binEnergy_eq] using h2
    · intro j hj
      simpa [binEnergy_eq] using h3 j hj
  · cases hf

theorem setup_not_ub {w el E : K} {N : Nat} : setup w N el E ≠ .ub := by
  unfold setup firstAbove
  split <;> simp

theorem setup_exit_iff {w el E : K} {N : Nat} :
    setup w N el E = .exit ↔ ∀ j < N, w * ((j : K) + 1 / 2) ≤ E := by
  unfold setup firstAbove
  split
  · rename_i k hk
    obtain ⟨h1, h2, h3⟩ := find_range_some hk
    simp only [Res.bind_ok, Res.pure_eq, reduceCtorEq, false_iff, not_forall]
    refine ⟨k, h1, ?_⟩
    simpa [binEnergy_eq] using h2
  · rename_i hn
    have := find_range_none hn
    simp only [Res.bind_exit, true_iff]
    intro j hj
    simpa [binEnergy_eq] using this j hj

/-- Properties of the number of continuum bins. -/
theorem ncontOf_spec {E el : K} {f : Nat} {exc : Nat → K} (hel : 0 ≤ el) (h0 : exc f = 0) :
    ncontOf E el (f + 1) exc ≤ f ∧
    (0 < ncontOf E el (f + 1) exc → el ≠ 0 → el < E) ∧
    (∀ k, 1 ≤ k → k ≤ ncontOf E el (f + 1) exc → el ≠ 0 → el ≤ exc k) ∧
    (el = 0 → ncontOf E el (f + 1) exc = f) ∧
    (el ≠ 0 → el < E → 1 ≤ f → ncontOf E el (f + 1) exc < f ∧
      exc (ncontOf E el (f + 1) exc + 1) < el) := by
  unfold ncontOf
  by_cases h1 : el = 0
  · simp [h1]
  · rw [if_neg h1]
    have hpos : 0 < el := lt_of_le_of_ne hel (Ne.symm h1)
    by_cases h2 : el < E
    · rw [if_pos h2]
      simp only [Nat.add_sub_cancel]
      split
      · rename_i k hk
        obtain ⟨a1, a2, a3, a4⟩ := find_range'_some hk
        refine ⟨by omega, fun _ _ => h2, ?_, fun h => absurd h h1, ?_⟩
        · intro j hj1 hj2 _
          have := a4 j hj1 (by omega)
          simpa using this
        · intro _ _ _
          refine ⟨by omega, ?_⟩
          rw [Nat.sub_add_cancel a1]
          simpa using a3
      · rename_i hn
        have hnn := find_range'_none hn
        refine ⟨by omega, by omega, by omega, fun h => absurd h h1, ?_⟩
        intro _ _ hf
        have := hnn f hf (by omega)
        rw [h0] at this
        exact absurd hpos (by simpa using this)
    · rw [if_neg h2]
      exact ⟨by omega, by omega, by omega, fun h => absurd h h1, fun _ h => absurd h h2⟩

end CGMF.Grid

import Verif.Spec.LawIn
import Verif.Proofs.Walks
import Verif.Proofs.Rejection

/-! # Loops that reject pairs of random numbers -/

namespace CGMF.Law

open MeasureTheory

variable {α : Type}

/-- A loop that draws two numbers, and returns a function of them when they lie in `acc`. -/
structure PairLoop (acc : Set (ℝ × ℝ)) (X : ℝ × ℝ → α) (f : Rnd ℝ α) : Prop where
  nil : ∀ x, f [] ≠ .ok x
  one : ∀ r x, f [r] ≠ .ok x
  yes : ∀ r1 r2 s, (r1, r2) ∈ acc → f (r1 :: r2 :: s) = .ok (X (r1, r2), s)
  no : ∀ r1 r2 s, (r1, r2) ∉ acc → f (r1 :: r2 :: s) = f s

variable {acc : Set (ℝ × ℝ)} {X : ℝ × ℝ → α} {f : Rnd ℝ α}

/-- Accepted within the first `k` pairs. -/
def within (acc : Set (ℝ × ℝ)) (X : ℝ × ℝ → α) (S : Set α) : Nat → Set (ℕ → ℝ)
  | 0 => ∅
  | k + 1 => {ω | (ω 0, ω 1) ∈ acc ∧ X (ω 0, ω 1) ∈ S} ∪ ({ω | (ω 0, ω 1) ∉ acc} ∩ shift 2 ⁻¹' within acc X S k)

theorem pre_two_more (ω : ℕ → ℝ) (n : Nat) : pre ω (n + 2) = ω 0 :: ω 1 :: pre (shift 2 ω) n := by
  rw [Nat.add_comm n 2, pre_add]
  rfl

theorem mem_within (h : PairLoop acc X f) (S : Set α) : ∀ (k : Nat) (ω : ℕ → ℝ),
    ω ∈ within acc X S k ↔ ∃ n, n ≤ k * 2 ∧ ∃ a, f (pre ω n) = .ok (a, []) ∧ a ∈ S
  | 0, ω => by
    simp only [within, Set.mem_empty_iff_false, false_iff]
    rintro ⟨n, hn, a, h1, -⟩
    obtain rfl : n = 0 := by omega
    exact h.nil _ h1
  | k + 1, ω => by
    have ih := mem_within h S k (shift 2 ω)
    show (((ω 0, ω 1) ∈ acc ∧ X (ω 0, ω 1) ∈ S) ∨ ((ω 0, ω 1) ∉ acc ∧ shift 2 ω ∈ within acc X S k)) ↔ _
    rw [ih]
    constructor
    · rintro (⟨h1, h2⟩ | ⟨h1, n, hn, a, h2, h3⟩)
      · refine ⟨2, by omega, X (ω 0, ω 1), ?_, h2⟩
        rw [show (2 : Nat) = 0 + 2 from rfl, pre_two_more, h.yes _ _ _ h1]
        rfl
      · refine ⟨n + 2, by omega, a, ?_, h3⟩
        rw [pre_two_more, h.no _ _ _ h1, h2]
    · rintro ⟨n, hn, a, h1, h2⟩
      rcases n with _ | _ | n
      · exact absurd h1 (h.nil _)
      · exact absurd h1 (h.one _ _)
      · rw [pre_two_more] at h1
        by_cases hacc : (ω 0, ω 1) ∈ acc
        · rw [h.yes _ _ _ hacc] at h1
          simp only [Out.ok.injEq, Prod.mk.injEq] at h1
          left
          rw [h1.1]
          exact ⟨hacc, h2⟩
        · rw [h.no _ _ _ hacc] at h1
          exact .inr ⟨hacc, n, by omega, a, h1, h2⟩

theorem measurable_pair {R : Set (ℝ × ℝ)} (hR : MeasurableSet R) : MeasurableSet {ω : ℕ → ℝ | (ω 0, ω 1) ∈ R} :=
  ((measurable_pi_apply 0).prodMk (measurable_pi_apply 1)) hR

theorem measurable_within {S : Set α} (ha : MeasurableSet acc) (hS : MeasurableSet {x | x ∈ acc ∧ X x ∈ S}) :
    ∀ k, MeasurableSet (within acc X S k)
  | 0 => MeasurableSet.empty
  | k + 1 => (measurable_pair hS).union ((measurable_pair ha.compl).inter (measurable_shift 2 (measurable_within ha hS k)))

/-- Probability of a result times the probability to accept. -/
theorem prob_pair (h : PairLoop acc X f) {S : Set α} (ha : MeasurableSet acc)
    (hS : MeasurableSet {x | x ∈ acc ∧ X x ∈ S}) :
    probIn f S * stream {ω | (ω 0, ω 1) ∈ acc} = stream {ω | (ω 0, ω 1) ∈ acc ∧ X (ω 0, ω 1) ∈ S} := by
  set E : Set (ℕ → ℝ) := {ω | ∃ n a, f (pre ω n) = .ok (a, []) ∧ a ∈ S} with hE
  have hEu : E = ⋃ k, within acc X S k := by
    ext ω
    rw [Set.mem_iUnion]
    constructor
    · rintro ⟨n, a, h1, h2⟩
      exact ⟨n, (mem_within h S n ω).2 ⟨n, by omega, a, h1, h2⟩⟩
    · rintro ⟨k, hk⟩
      obtain ⟨n, -, a, h1, h2⟩ := (mem_within h S k ω).1 hk
      exact ⟨n, a, h1, h2⟩
  have hEm : MeasurableSet E := by
    rw [hEu]
    exact MeasurableSet.iUnion (measurable_within ha hS)
  set A : Set (ℕ → ℝ) := {ω | (ω 0, ω 1) ∈ acc ∧ X (ω 0, ω 1) ∈ S} with hA
  set R : Set (ℕ → ℝ) := {ω | (ω 0, ω 1) ∉ acc} with hR
  have hAm : MeasurableSet A := measurable_pair hS
  have hRm : MeasurableSet R := measurable_pair ha.compl
  have hsplit : E = A ∪ (R ∩ shift 2 ⁻¹' E) := by
    ext ω
    constructor
    · rintro ⟨n, a, h1, h2⟩
      have := (mem_within h S (n + 1) ω).2 ⟨n, by omega, a, h1, h2⟩
      rcases this with h3 | ⟨h3, h4⟩
      · exact .inl h3
      · refine .inr ⟨h3, ?_⟩
        rw [hEu]
        exact Set.mem_iUnion.2 ⟨n, h4⟩
    · rintro (h3 | ⟨h3, h4⟩)
      · rw [hEu]
        exact Set.mem_iUnion.2 ⟨1, .inl h3⟩
      · rw [hEu] at h4 ⊢
        obtain ⟨k, hk⟩ := Set.mem_iUnion.1 h4
        exact Set.mem_iUnion.2 ⟨k + 1, .inr ⟨h3, hk⟩⟩
  have hdisj : Disjoint A (R ∩ shift 2 ⁻¹' E) := by
    rw [Set.disjoint_left]
    rintro ω ⟨h1, -⟩ ⟨h2, -⟩
    exact h2 h1
  have hind := indep E hEm 2 R hRm (by
    intro ω ω' hω
    show (ω 0, ω 1) ∉ acc ↔ (ω' 0, ω' 1) ∉ acc
    rw [hω 0 (by omega), hω 1 (by omega)])
  have h1 : stream E = stream A + stream R * stream E := by
    conv_lhs => rw [hsplit]
    rw [measure_union hdisj (hRm.inter (measurable_shift 2 hEm)), hind]
  have h2 : stream R + stream {ω : ℕ → ℝ | (ω 0, ω 1) ∈ acc} = 1 := by
    have : R = {ω : ℕ → ℝ | (ω 0, ω 1) ∈ acc}ᶜ := rfl
    rw [this, add_comm, measure_add_measure_compl (measurable_pair ha), measure_univ]
  show stream E * _ = _
  have h3 : stream R * stream E + stream E * stream {ω : ℕ → ℝ | (ω 0, ω 1) ∈ acc} = stream R * stream E + stream A := by
    calc _ = stream E * (stream R + stream {ω : ℕ → ℝ | (ω 0, ω 1) ∈ acc}) := by ring
      _ = stream E := by rw [h2, mul_one]
      _ = _ := by rw [add_comm]; exact h1
  exact (ENNReal.add_right_inj (ENNReal.mul_ne_top (measure_ne_top _ _) (measure_ne_top _ _))).1 h3

end CGMF.Law

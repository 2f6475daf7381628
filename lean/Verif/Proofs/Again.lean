import Verif.Model.Again
import Verif.Proofs.Whole
import Verif.Proofs.SessionEvent

/-! # Passes repeated until one succeeds -/

namespace CGMF.Law

open MeasureTheory CGMF.Frag

variable {α β : Type}

theorem shift_preserving (n : Nat) : MeasurePreserving (shift n) stream stream := by
  refine ⟨measurable_shift n, ?_⟩
  ext E hE
  rw [Measure.map_apply (measurable_shift n) hE]
  have := indep E hE n Set.univ MeasurableSet.univ (fun _ _ _ => Iff.rfl)
  rw [Set.univ_inter, measure_univ, one_mul] at this
  exact this

theorem indep_null {E : Set (ℕ → ℝ)} (hE : NullMeasurableSet E stream) (n : Nat) {S : Set (ℕ → ℝ)} (hS : MeasurableSet S)
    (h : ∀ ω ω', (∀ i < n, ω i = ω' i) → (ω ∈ S ↔ ω' ∈ S)) : stream (S ∩ shift n ⁻¹' E) = stream S * stream E := by
  obtain ⟨E', hE', he⟩ := hE
  rw [measure_congr he, ← indep E' hE' n S hS h]
  exact measure_congr ((Filter.EventuallyEq.refl _ S).inter ((shift_preserving n).quasiMeasurePreserving.preimage_ae_eq he))

/-- The sequences on which `f` ends with a value whose set contains the rest of the sequence. -/
def Then (f : Rnd ℝ α) (E : α → Set (ℕ → ℝ)) : Set (ℕ → ℝ) := {ω | ∃ a m, ω ∈ At f a m ∧ shift m ω ∈ E a}

theorem then_union (f : Rnd ℝ α) (E : α → Set (ℕ → ℝ)) : Then f E = ⋃ x : α × ℕ, (At f x.1 x.2 ∩ shift x.2 ⁻¹' E x.1) := by
  ext ω
  simp [Then]

theorem then_law [Countable α] {f : Rnd ℝ α} (hf : Local f) (hm : Meas f) {E : α → Set (ℕ → ℝ)}
    (hE : ∀ a, NullMeasurableSet (E a) stream) :
    NullMeasurableSet (Then f E) stream ∧ stream (Then f E) = ∑' a, prob f a * stream (E a) := by
  have hn : ∀ x : α × ℕ, NullMeasurableSet (At f x.1 x.2 ∩ shift x.2 ⁻¹' E x.1) stream := fun x =>
    (hm x.1 x.2).nullMeasurableSet.inter ((hE x.1).preimage (shift_preserving x.2).quasiMeasurePreserving)
  rw [then_union]
  refine ⟨NullMeasurableSet.iUnion hn, ?_⟩
  rw [measure_iUnion₀ _ hn]
  · rw [ENNReal.tsum_prod' (f := fun i : α × ℕ => stream (At f i.1 i.2 ∩ shift i.2 ⁻¹' E i.1))]
    apply tsum_congr
    intro a
    have : ∀ m, stream (At f a m ∩ shift m ⁻¹' E a) = stream (At f a m) * stream (E a) := fun m =>
      indep_null (hE a) m (hm a m) (at_dep f a m)
    simp only [this]
    rw [ENNReal.tsum_mul_right, ← prob_sum hf hm]
  · rintro ⟨a, m⟩ ⟨a', m'⟩ h
    apply Disjoint.aedisjoint
    rw [Set.disjoint_left]
    rintro ω ⟨h1, _⟩ ⟨h2, _⟩
    obtain ⟨rfl, rfl⟩ := at_unique hf h1 h2
    exact h rfl

/-- The sequences on which a program ends in `A`. -/
def EndsIn (f : Rnd ℝ α) (A : Set α) : Set (ℕ → ℝ) := {ω | ∃ k x, f (pre ω k) = .ok (x, []) ∧ x ∈ A}

theorem endsIn_bind {f : Rnd ℝ α} (hf : Local f) (g : α → Rnd ℝ β) (A : Set β) : EndsIn (f >>= g) A = Then f fun a => EndsIn (g a) A := by
  ext ω
  constructor
  · rintro ⟨k, x, h, hx⟩
    obtain ⟨a, m, hmk, h1, h2⟩ := (at_bind hf x k ω).mp h
    exact ⟨a, m, h1, k - m, x, h2, hx⟩
  · rintro ⟨a, m, h1, k, x, h2, hx⟩
    refine ⟨m + k, x, (at_bind hf x (m + k) ω).mpr ⟨a, m, by omega, h1, ?_⟩, hx⟩
    rw [Nat.add_sub_cancel_left]
    exact h2

/-- A pass that succeeds or is repeated. -/
theorem retry_law {f : Rnd ℝ α} {Z : Set α} (hf : Observable f Z) (g h : α → Rnd ℝ β) (r : Rnd ℝ β) {A : Set β}
    (hZ : ∀ a ∈ Z, h a = r) (hZ' : ∀ a ∉ Z, h a = g a) (hg : ∀ a ∈ Z, ∀ s x, g a s ≠ .ok x)
    (he : NullMeasurableSet (EndsIn (f >>= g) A) stream) (hr : NullMeasurableSet (EndsIn r A) stream) :
    NullMeasurableSet (EndsIn (f >>= h) A) stream ∧
      stream (EndsIn (f >>= h) A) = stream (EndsIn (f >>= g) A) + probIn f Z * stream (EndsIn r A) := by
  have e : EndsIn (f >>= h) A = EndsIn (f >>= g) A ∪ Then (mark f Z) fun _ => EndsIn r A := by
    rw [endsIn_bind hf.loc, endsIn_bind hf.loc]
    ext ω
    constructor
    · rintro ⟨a, m, h1, h2⟩
      beta_reduce at h2
      by_cases ha : a ∈ Z
      · rw [hZ a ha] at h2
        exact Or.inr ⟨(), m, mark_ok.mpr ⟨a, ha, h1⟩, h2⟩
      · rw [hZ' a ha] at h2
        exact Or.inl ⟨a, m, h1, h2⟩
    · rintro (⟨a, m, h1, h2⟩ | ⟨_, m, h1, h2⟩)
      · refine ⟨a, m, h1, ?_⟩
        beta_reduce at h2 ⊢
        by_cases ha : a ∈ Z
        · obtain ⟨k, x, hx, -⟩ := h2
          exact absurd hx (hg a ha _ _)
        · rw [hZ' a ha]
          exact h2
      · obtain ⟨a, ha, h1⟩ := mark_ok.mp h1
        refine ⟨a, m, h1, ?_⟩
        beta_reduce
        rw [hZ a ha]
        exact h2
  obtain ⟨t1, t2⟩ := then_law (local_mark' hf.loc Z) hf.mark (E := fun _ => EndsIn r A) fun _ => hr
  rw [e]
  refine ⟨he.union t1, ?_⟩
  rw [measure_union₀ t1, t2, tsum_fintype]
  · simp [probIn_mark]
  · apply Disjoint.aedisjoint
    rw [Set.disjoint_left]
    intro ω h1 h2
    rw [endsIn_bind hf.loc] at h1
    obtain ⟨a, m, h1, k, x, hx, -⟩ := h1
    obtain ⟨_, m', h2, -⟩ := h2
    obtain ⟨b, hb, h2⟩ := mark_ok.mp h2
    obtain ⟨rfl, rfl⟩ := at_unique hf.loc h1 h2
    exact hg a hb _ _ hx

end CGMF.Law

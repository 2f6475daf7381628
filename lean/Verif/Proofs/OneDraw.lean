import Verif.Proofs.Rejection
import Verif.Proofs.Directions

/-!
# Computations that use one random number
-/

namespace CGMF.Law

open MeasureTheory

variable {α : Type}

/-- One number, mapped. -/
def one (f : ℝ → α) : Rnd ℝ α := Rnd.draw >>= fun r => pure (f r)

theorem local_one (f : ℝ → α) : Local (one f) := local_bind CGMF.Isotropy.local_draw fun _ => local_pure _

theorem one_pre (f : ℝ → α) (ω : ℕ → ℝ) (n : Nat) (a : α) : one f (pre ω n) = .ok (a, []) ↔ n = 1 ∧ f (ω 0) = a := by
  have : one f (pre ω n) = .ok (a, []) ↔ ∃ r, pre ω n = [r] ∧ f r = a := by
    unfold one
    rw [Rnd.bind_ok]
    constructor
    · rintro ⟨r, s, h1, h2⟩
      rw [Rnd.draw_ok] at h1
      rw [Rnd.pure_ok] at h2
      obtain ⟨h2, rfl⟩ := h2
      exact ⟨r, h1, h2.symm ▸ rfl⟩
    · rintro ⟨r, h1, h2⟩
      exact ⟨r, [], Rnd.draw_ok.mpr h1, Rnd.pure_ok.mpr ⟨h2.symm ▸ rfl, rfl⟩⟩
  rw [this]
  constructor
  · rintro ⟨r, h1, h2⟩
    have hn : n = 1 := by simpa using congrArg List.length h1
    subst hn
    refine ⟨rfl, ?_⟩
    have : pre ω 1 = [ω 0] := rfl
    rw [this] at h1
    rw [List.cons.inj h1 |>.1]
    exact h2
  · rintro ⟨rfl, h⟩
    exact ⟨ω 0, rfl, h⟩

theorem meas_one (f : ℝ → α) (h : ∀ a, MeasurableSet {r | f r = a}) : Meas (one f) := by
  intro a n
  unfold At
  simp only [one_pre]
  by_cases hn : n = 1
  · simp only [hn, true_and]
    exact (measurable_pi_apply (X := fun _ : ℕ => ℝ) 0) (h a)
  · simp only [hn, false_and]
    exact MeasurableSet.empty

theorem prob_one (f : ℝ → α) (a : α) (h : MeasurableSet {r | f r = a}) : prob (one f) a = unif {r | f r = a} := by
  unfold prob
  have e : {ω : ℕ → ℝ | ∃ n, one f (pre ω n) = .ok (a, [])} = (fun ω : ℕ → ℝ => ω 0) ⁻¹' {r | f r = a} := by
    ext ω
    simp only [one_pre, Set.mem_ofPred_eq, Set.mem_preimage]
    exact ⟨fun ⟨_, h⟩ => h.2, fun h => ⟨1, rfl, h⟩⟩
  rw [e, ← Measure.map_apply (measurable_pi_apply 0) h]
  have : stream.map (fun ω : ℕ → ℝ => ω 0) = unif := Measure.infinitePi_map_eval (fun _ => unif) 0
  rw [this]

theorem unif_Iio {c : ℝ} (h0 : 0 ≤ c) (h1 : c ≤ 1) : unif {r | r < c} = ENNReal.ofReal c := by
  unfold unif
  rw [Measure.restrict_apply (show MeasurableSet {r : ℝ | r < c} from measurableSet_Iio)]
  have : {r : ℝ | r < c} ∩ Set.Ico 0 1 = Set.Ico 0 c := by
    ext x
    simp only [Set.mem_inter_iff, Set.mem_ofPred_eq, Set.mem_Ico]
    exact ⟨fun h => ⟨h.2.1, h.1⟩, fun h => ⟨h.2, h.1, lt_of_lt_of_le h.2 h1⟩⟩
  rw [this, Real.volume_Ico, sub_zero]

theorem unif_Ici {c : ℝ} (h0 : 0 ≤ c) (h1 : c ≤ 1) : unif {r | c ≤ r} = ENNReal.ofReal (1 - c) := by
  unfold unif
  rw [Measure.restrict_apply (show MeasurableSet {r : ℝ | c ≤ r} from measurableSet_Ici)]
  have : {r : ℝ | c ≤ r} ∩ Set.Ico 0 1 = Set.Ico c 1 := by
    ext x
    simp only [Set.mem_inter_iff, Set.mem_ofPred_eq, Set.mem_Ico]
    exact ⟨fun h => ⟨h.1, h.2.2⟩, fun h => ⟨h.1, h0.trans h.1, h.2⟩⟩
  rw [this, Real.volume_Ico]

end CGMF.Law

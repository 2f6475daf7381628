import Verif.Proofs.Reach
import Verif.Proofs.ForcedLaw

/-! # Selection by a running sum, followed by anything -/

namespace CGMF.Law

open MeasureTheory CGMF.MC

variable {α : Type}

theorem measurable_first (o : Option α) : ∀ (l : List (α × ℝ)) (s : ℝ), MeasurableSet {r : ℝ | firstReach r s l = o} := by
  intro l
  induction l with
  | nil => intro s; exact (MeasurableSet.const (none = o) : MeasurableSet {_r : ℝ | none = o})
  | cons y l ih =>
    intro s
    have : {r : ℝ | firstReach r s (y :: l) = o} =
        ({r | r ≤ s + y.2} ∩ {_r | some y.1 = o}) ∪ ({r | r ≤ s + y.2}ᶜ ∩ {r | firstReach r (s + y.2) l = o}) := by
      ext r
      simp only [firstReach, Set.mem_ofPred_eq, Set.mem_union, Set.mem_inter_iff, Set.mem_compl_iff]
      by_cases h : r ≤ s + y.2 <;> simp [h]
    rw [this]
    have h1 : MeasurableSet {r : ℝ | r ≤ s + y.2} := measurableSet_Iic
    exact (h1.inter (MeasurableSet.const _)).union (h1.compl.inter (ih _))

/-- The mass of the entries weighted by what follows. -/
theorem integral_first (φ : Option α → ENNReal) (h0 : φ none = 0) : ∀ (l : List (α × ℝ)) (s : ℝ), (∀ y ∈ l, 0 ≤ y.2) →
    ∫⁻ r in Set.Ioi s, φ (firstReach r s l) = (l.map fun y => ENNReal.ofReal y.2 * φ (some y.1)).sum := by
  intro l
  induction l with
  | nil =>
    intro s _
    simp [firstReach, h0]
  | cons y l ih =>
    intro s hy
    have hy0 := hy y (by simp)
    rw [← Set.Ioc_union_Ioi_eq_Ioi (show s ≤ s + y.2 by linarith),
      lintegral_union measurableSet_Ioi (Set.disjoint_left.mpr fun x hx hx' => absurd hx.2 (not_le.mpr hx')), List.map_cons, List.sum_cons]
    congr 1
    · rw [setLIntegral_congr_fun (g := fun _ => φ (some y.1)) measurableSet_Ioc]
      · rw [setLIntegral_const, Real.volume_Ioc, mul_comm]
        congr 2
        ring
      · intro r hr
        simp only [firstReach, if_pos hr.2]
    · rw [← ih (s + y.2) fun z hz => hy z (by simp [hz])]
      apply setLIntegral_congr_fun measurableSet_Ioi
      intro r hr
      simp only [firstReach, if_neg (not_le.mpr (show s + y.2 < r from hr))]

theorem first_beyond : ∀ (l : List (α × ℝ)) (s r : ℝ), (∀ y ∈ l, 0 ≤ y.2) → s + (l.map (·.2)).sum < r → firstReach r s l = none := by
  intro l
  induction l with
  | nil => intro s r _ _; rfl
  | cons y l ih =>
    intro s r hy hr
    rw [List.map_cons, List.sum_cons] at hr
    have hs : 0 ≤ (l.map (·.2)).sum := List.sum_nonneg fun z hz => by
      obtain ⟨x, hx, rfl⟩ := List.mem_map.mp hz
      exact hy x (by simp [hx])
    rw [firstReach, if_neg (by linarith)]
    exact ih _ _ (fun z hz => hy z (by simp [hz])) (by linarith)

/-- One number selects an entry, the following ones decide an event that depends on it. -/
theorem select_gen (G : α → Set (ℕ → ℝ)) (hG : ∀ a, MeasurableSet (G a)) (l : List (α × ℝ)) (h0 : ∀ y ∈ l, 0 ≤ y.2)
    (h1 : (l.map (·.2)).sum ≤ 1) :
    stream {ω | ∃ a, firstReach (ω 0) 0 l = some a ∧ shift 1 ω ∈ G a} = (l.map fun y => ENNReal.ofReal y.2 * stream (G y.1)).sum := by
  have hreach : ∀ r a, firstReach r 0 l = some a → ∃ y ∈ l, y.1 = a := by
    intro r a h
    obtain ⟨l1, y, l2, e, -, -⟩ := firstReach_some h
    exact ⟨(a, y), by rw [e]; simp, rfl⟩
  have hm : MeasurableSet {ω : ℕ → ℝ | ∃ a, firstReach (ω 0) 0 l = some a ∧ shift 1 ω ∈ G a} := by
    have : {ω : ℕ → ℝ | ∃ a, firstReach (ω 0) 0 l = some a ∧ shift 1 ω ∈ G a} =
        ⋃ y ∈ l, ({ω | firstReach (ω 0) 0 l = some y.1} ∩ shift 1 ⁻¹' G y.1) := by
      ext ω
      simp only [Set.mem_ofPred_eq, Set.mem_iUnion, Set.mem_inter_iff, Set.mem_preimage]
      constructor
      · rintro ⟨a, h2, h3⟩
        obtain ⟨y, hy, rfl⟩ := hreach _ _ h2
        exact ⟨y, hy, h2, h3⟩
      · rintro ⟨y, _, h2, h3⟩
        exact ⟨y.1, h2, h3⟩
    rw [this]
    refine MeasurableSet.biUnion (Set.Finite.countable (List.finite_toSet l)) fun y _ => ?_
    exact ((measurable_pi_apply 0) (measurable_first (some y.1) l 0)).inter (measurable_shift 1 (hG y.1))
  rw [stream_eq hm]
  set φ : Option α → ENNReal := fun o => match o with
    | some a => stream (G a)
    | none => 0 with hφ
  have e1 : ∀ r : ℝ, stream {ω | cons r ω ∈ {ω : ℕ → ℝ | ∃ a, firstReach (ω 0) 0 l = some a ∧ shift 1 ω ∈ G a}} = φ (firstReach r 0 l) := by
    intro r
    have hs : ∀ ω, shift 1 (cons r ω) = ω := fun ω => by
      funext k
      show cons r ω (1 + k) = ω k
      rw [show 1 + k = k + 1 by omega]
      rfl
    cases hf : firstReach r 0 l with
    | none =>
      simp only [hφ]
      rw [show {ω | cons r ω ∈ {ω : ℕ → ℝ | ∃ a, firstReach (ω 0) 0 l = some a ∧ shift 1 ω ∈ G a}} = ∅ from ?_, measure_empty]
      ext ω
      simp only [Set.mem_ofPred_eq, Set.mem_empty_iff_false, iff_false, not_exists, not_and]
      intro a ha
      change firstReach r 0 l = some a at ha
      rw [hf] at ha
      cases ha
    | some a =>
      simp only [hφ]
      congr 1
      ext ω
      simp only [Set.mem_ofPred_eq]
      constructor
      · rintro ⟨b, hb, hb'⟩
        change firstReach r 0 l = some b at hb
        rw [hf] at hb
        cases hb
        rwa [hs] at hb'
      · intro h
        exact ⟨a, hf, by rwa [hs]⟩
  simp only [e1]
  rw [← integral_first φ rfl l 0 h0]
  unfold unif
  rw [← Set.Ioc_union_Ioi_eq_Ioi (show (0 : ℝ) ≤ 1 by norm_num),
    lintegral_union measurableSet_Ioi (Set.disjoint_left.mpr fun x hx hx' => absurd hx.2 (not_le.mpr hx'))]
  rw [setLIntegral_congr_fun (g := fun _ => (0 : ENNReal)) measurableSet_Ioi (fun r (hr : 1 < r) => by
    rw [first_beyond l 0 r h0 (by linarith)])]
  rw [lintegral_zero, add_zero]
  exact setLIntegral_congr (Ico_ae_eq_Ioc)

end CGMF.Law

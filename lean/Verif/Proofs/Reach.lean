import Verif.Proofs.Rejection
import Verif.Model.Cascade

/-! # Law of a selection by running sums -/

namespace CGMF.Law

open MeasureTheory CGMF.MC

variable {α : Type}

/-- Pairs for which the running sum started at `s` stops at an entry `a` and the second number is in `T a`. -/
def reachSet (T : α → Set ℝ) (s : ℝ) (l : List (α × ℝ)) : Set (ℝ × ℝ) :=
  {x | s < x.1 ∧ ∃ a, firstReach x.1 s l = some a ∧ x.2 ∈ T a}

theorem reach_cons (T : α → Set ℝ) (s : ℝ) (a : α) (x : ℝ) (hx : 0 ≤ x) (l : List (α × ℝ)) :
    reachSet T s ((a, x) :: l) = Set.Ioc s (s + x) ×ˢ T a ∪ reachSet T (s + x) l := by
  ext ⟨r, q⟩
  simp only [reachSet, Set.mem_union, Set.mem_prod, Set.mem_Ioc, Set.mem_ofPred_eq, firstReach]
  constructor
  · rintro ⟨h1, b, h2, h3⟩
    by_cases h : r ≤ s + x
    · rw [if_pos h] at h2
      cases h2
      exact .inl ⟨⟨h1, h⟩, h3⟩
    · rw [if_neg h] at h2
      exact .inr ⟨not_le.mp h, b, h2, h3⟩
  · rintro (⟨⟨h1, h2⟩, h3⟩ | ⟨h1, b, h2, h3⟩)
    · exact ⟨h1, a, by rw [if_pos h2], h3⟩
    · exact ⟨by linarith, b, by rw [if_neg (not_le.mpr h1)]; exact h2, h3⟩

theorem measurable_reach (T : α → Set ℝ) (hT : ∀ a, MeasurableSet (T a)) : ∀ (l : List (α × ℝ)) (s : ℝ),
    (∀ y ∈ l, 0 ≤ y.2) → MeasurableSet (reachSet T s l) := by
  intro l
  induction l with
  | nil =>
    intro s _
    have : reachSet T s [] = ∅ := by
      ext x
      simp [reachSet, firstReach]
    rw [this]
    exact MeasurableSet.empty
  | cons y l ih =>
    intro s h
    obtain ⟨a, x⟩ := y
    rw [reach_cons T s a x (h _ (List.mem_cons_self ..))]
    exact (measurableSet_Ioc.prod (hT a)).union (ih _ fun y hy => h y (List.mem_cons_of_mem _ hy))

theorem reach_volume (T : α → Set ℝ) (hT : ∀ a, MeasurableSet (T a)) : ∀ (l : List (α × ℝ)) (s : ℝ),
    (∀ y ∈ l, 0 ≤ y.2) → (volume.prod unif) (reachSet T s l) = (l.map fun y => ENNReal.ofReal y.2 * unif (T y.1)).sum := by
  intro l
  induction l with
  | nil =>
    intro s _
    have : reachSet T s [] = ∅ := by
      ext x
      simp [reachSet, firstReach]
    rw [this]
    simp
  | cons y l ih =>
    intro s h
    obtain ⟨a, x⟩ := y
    have h' : ∀ y ∈ l, 0 ≤ y.2 := fun y hy => h y (List.mem_cons_of_mem _ hy)
    have hx : 0 ≤ x := h _ (List.mem_cons_self ..)
    rw [reach_cons T s a x hx, measure_union _ (measurable_reach T hT l _ h'), ih _ h', Measure.prod_prod,
      Real.volume_Ioc, List.map_cons, List.sum_cons]
    · congr 2
      ring_nf
    · rw [Set.disjoint_left]
      rintro ⟨r, q⟩ h1 h2
      exact absurd h2.1 (not_lt.mpr h1.1.2)

theorem reach_le : ∀ (l : List (α × ℝ)) (s r : ℝ) (a : α), firstReach r s l = some a → r ≤ s + (l.map (·.2)).sum ∨
    ∃ y ∈ l, y.2 < 0 := by
  intro l
  induction l with
  | nil => intro s r a h; cases h
  | cons y l ih =>
    intro s r a h
    obtain ⟨b, x⟩ := y
    rw [firstReach] at h
    by_cases hr : r ≤ s + x
    · by_cases hn : ∃ y ∈ (b, x) :: l, y.2 < 0
      · exact .inr hn
      · left
        push Not at hn
        have : 0 ≤ (l.map (·.2)).sum := List.sum_nonneg fun z hz => by
          obtain ⟨y, hy, rfl⟩ := List.mem_map.mp hz
          exact hn y (List.mem_cons_of_mem _ hy)
        rw [List.map_cons, List.sum_cons]
        simp only []
        linarith
    · rw [if_neg hr] at h
      rcases ih _ _ _ h with h1 | ⟨y, hy, h1⟩
      · left
        rw [List.map_cons, List.sum_cons]
        simp only []
        linarith
      · exact .inr ⟨y, List.mem_cons_of_mem _ hy, h1⟩

/-- The running sum stops when the entries add up to one. -/
theorem reach_total : ∀ (l : List (α × ℝ)) (s r : ℝ), r ≤ s + (l.map (·.2)).sum → s < r → ∃ a, firstReach r s l = some a := by
  intro l
  induction l with
  | nil =>
    intro s r h hs
    simp only [List.map_nil, List.sum_nil, add_zero] at h
    exact absurd hs (not_lt.mpr h)
  | cons y l ih =>
    intro s r h hs
    obtain ⟨b, x⟩ := y
    rw [firstReach]
    by_cases hr : r ≤ s + x
    · exact ⟨b, if_pos hr⟩
    · rw [if_neg hr]
      rw [List.map_cons, List.sum_cons] at h
      exact ih _ _ (by simp only [] at h; linarith) (not_le.mp hr)

/-- **Law of a selection.**  With non-negative entries adding up to at most one, two independent uniform numbers
select an entry `a` with the second one in `T a` with probability `Σ x_a * P(T a)`. -/
theorem select_law (T : α → Set ℝ) (hT : ∀ a, MeasurableSet (T a)) (l : List (α × ℝ)) (h0 : ∀ y ∈ l, 0 ≤ y.2)
    (h1 : (l.map (·.2)).sum ≤ 1) :
    stream {ω | ∃ a, firstReach (ω 0) 0 l = some a ∧ ω 1 ∈ T a}
      = (l.map fun y => ENNReal.ofReal y.2 * unif (T y.1)).sum := by
  rw [← reach_volume T hT l 0 h0]
  -- replace the event by one about positive numbers
  have hz : stream {ω : ℕ → ℝ | ω 0 ≤ 0} = 0 := by
    have h : stream.map (fun ω : ℕ → ℝ => ω 0) = unif := Measure.infinitePi_map_eval (fun _ => unif) 0
    have : stream {ω : ℕ → ℝ | ω 0 ≤ 0} = (stream.map (fun ω : ℕ → ℝ => ω 0)) (Set.Iic 0) := by
      rw [Measure.map_apply (measurable_pi_apply 0) measurableSet_Iic]
      rfl
    rw [this, h]
    unfold unif
    rw [Measure.restrict_apply measurableSet_Iic]
    refine measure_mono_null (t := {0}) ?_ (by simp)
    rintro x ⟨h1, h2, _⟩
    exact le_antisymm h1 h2
  have hm : MeasurableSet {ω : ℕ → ℝ | (ω 0, ω 1) ∈ reachSet T 0 l} :=
    ((measurable_pi_apply 0).prodMk (measurable_pi_apply 1)) (measurable_reach T hT l 0 h0)
  have e1 : stream {ω | ∃ a, firstReach (ω 0) 0 l = some a ∧ ω 1 ∈ T a} = stream {ω : ℕ → ℝ | (ω 0, ω 1) ∈ reachSet T 0 l} := by
    apply le_antisymm
    · calc stream {ω | ∃ a, firstReach (ω 0) 0 l = some a ∧ ω 1 ∈ T a}
          ≤ stream ({ω : ℕ → ℝ | (ω 0, ω 1) ∈ reachSet T 0 l} ∪ {ω : ℕ → ℝ | ω 0 ≤ 0}) := by
            apply measure_mono
            intro ω hω
            by_cases h : 0 < ω 0
            · exact .inl ⟨h, hω⟩
            · exact .inr (not_lt.mp h)
        _ ≤ _ := by
            refine (measure_union_le _ _).trans ?_
            rw [hz, add_zero]
    · exact measure_mono fun ω hω => hω.2
  rw [e1, stream_two (measurable_reach T hT l 0 h0)]
  have hu : volume.prod unif = ((volume : Measure ℝ).prod (volume : Measure ℝ)).restrict (Set.univ ×ˢ Set.Ico 0 1) := by
    unfold unif
    rw [← Measure.prod_restrict, Measure.restrict_univ]
  rw [hu, Measure.restrict_apply (measurable_reach T hT l 0 h0), ← Measure.volume_eq_prod]
  apply le_antisymm
  · apply measure_mono
    rintro ⟨a, b⟩ ⟨_, h2, h3⟩
    exact ⟨h3, trivial, h2⟩
  · have hone : volume ({(1 : ℝ)} ×ˢ (Set.univ : Set ℝ)) = 0 := by
      rw [Measure.volume_eq_prod, Measure.prod_prod]
      simp
    calc volume (reachSet T 0 l ∩ Set.univ ×ˢ Set.Ico 0 1)
        ≤ volume ({x : ℝ × ℝ | (0 ≤ x.1 ∧ x.1 < 1) ∧ (0 ≤ x.2 ∧ x.2 < 1) ∧ x ∈ reachSet T 0 l} ∪
            {(1 : ℝ)} ×ˢ (Set.univ : Set ℝ)) := by
          apply measure_mono
          rintro ⟨a, b⟩ ⟨h2, _, h3⟩
          have h2' := h2
          obtain ⟨p1, c, p2, _⟩ := h2'
          rcases reach_le l 0 a c p2 with hle | ⟨y, hy, hlt⟩
          · rw [zero_add] at hle
            rcases (hle.trans h1).lt_or_eq with hlt | heq
            · exact .inl ⟨⟨le_of_lt p1, hlt⟩, h3, h2⟩
            · exact .inr ⟨heq, trivial⟩
          · exact absurd hlt (not_lt.mpr (h0 y hy))
      _ ≤ _ := by
          refine (measure_union_le _ _).trans ?_
          rw [hone, add_zero]

end CGMF.Law

import Verif.Proofs.Reach
import Verif.Proofs.Terminate
import Verif.Spec.Branching

/-! # Law of the discrete cascade -/

namespace CGMF.Law

open MeasureTheory CGMF.MC CGMF.Branching

/-- Random numbers used for the time spent in a level. -/
noncomputable def waits (l : Level ℝ) : Nat := if 0 < l.halflife then 1 else 0

/-- Sequences that select a branch to `v` with or without conversion. -/
def stepSet (bs : List (Branch ℝ)) (v : Nat) (conv : Bool) : Set (ℕ → ℝ) :=
  {ω | ∃ b, pickBranch (ω 0) bs = some b ∧ b.fstate = v ∧ decide (b.gratio < ω 1) = conv}

/-- Sequences along which the cascade `q` is followed. -/
def Follows (levels : List (Level ℝ)) : List (Nat × Bool) → Set (ℕ → ℝ)
  | [] => Set.univ
  | (u, conv) :: q =>
    match levels[u]? with
    | none => ∅
    | some l => if u = 0 then ∅ else shift (waits l) ⁻¹' (stepSet l.branches (start q) conv ∩ shift 2 ⁻¹' Follows levels q)

/-- Random numbers used along the cascade `q`. -/
noncomputable def cost (levels : List (Level ℝ)) : List (Nat × Bool) → Nat
  | [] => 0
  | (u, _) :: q => (match levels[u]? with | some l => waits l | none => 0) + 2 + cost levels q

/-- Following `q` depends on these numbers only. -/
theorem follows_dep (levels : List (Level ℝ)) : ∀ (q : List (Nat × Bool)) (ω ω' : ℕ → ℝ), (∀ i < cost levels q, ω i = ω' i) →
    (ω ∈ Follows levels q ↔ ω' ∈ Follows levels q) := by
  intro q
  induction q with
  | nil => intro ω ω' _; exact Iff.rfl
  | cons x q ih =>
    intro ω ω' h
    obtain ⟨u, conv⟩ := x
    rw [cost] at h
    rw [Follows]
    cases hl : levels[u]? with
    | none => exact Iff.rfl
    | some l =>
      rw [hl] at h
      simp only at h ⊢
      split
      · exact Iff.rfl
      · have h0 : shift (waits l) ω 0 = shift (waits l) ω' 0 := h _ (by omega)
        have h1 : shift (waits l) ω 1 = shift (waits l) ω' 1 := h _ (by omega)
        have h2 : ∀ i < cost levels q, shift 2 (shift (waits l) ω) i = shift 2 (shift (waits l) ω') i := by
          intro i hi
          exact h (waits l + (2 + i)) (by omega)
        simp only [Set.mem_preimage, Set.mem_inter_iff, stepSet, Set.mem_ofPred_eq, h0, h1, ih _ _ h2]

/-- Values of the second number that lead to `v` with or without conversion. -/
def convSet (v : Nat) (conv : Bool) (b : Branch ℝ) : Set ℝ := {x | b.fstate = v ∧ decide (b.gratio < x) = conv}

theorem measurable_convSet (v : Nat) (conv : Bool) (b : Branch ℝ) : MeasurableSet (convSet v conv b) := by
  by_cases h : b.fstate = v
  · cases conv with
    | true =>
      have : convSet v true b = Set.Ioi b.gratio := by ext x; simp [convSet, h]
      rw [this]; exact measurableSet_Ioi
    | false =>
      have : convSet v false b = Set.Iic b.gratio := by ext x; simp [convSet, h]
      rw [this]; exact measurableSet_Iic
  · have : convSet v conv b = ∅ := by ext x; simp [convSet, h]
    rw [this]; exact MeasurableSet.empty

theorem unif_convSet (v : Nat) (conv : Bool) (b : Branch ℝ) (h0 : 0 ≤ b.gratio) (h1 : b.gratio ≤ 1) :
    unif (convSet v conv b) = ENNReal.ofReal (if b.fstate = v then (if conv then 1 - b.gratio else b.gratio) else 0) := by
  by_cases h : b.fstate = v
  · rw [if_pos h]
    unfold unif
    rw [Measure.restrict_apply (measurable_convSet v conv b)]
    cases conv with
    | true =>
      have : convSet v true b ∩ Set.Ico 0 1 = Set.Ioo b.gratio 1 := by
        ext x
        simp only [convSet, h, true_and, decide_eq_true_eq, Set.mem_inter_iff, Set.mem_ofPred_eq, Set.mem_Ico, Set.mem_Ioo]
        constructor
        · rintro ⟨a, _, c⟩; exact ⟨a, c⟩
        · rintro ⟨a, c⟩; exact ⟨a, by linarith, c⟩
      rw [this, Real.volume_Ioo, if_pos rfl]
    | false =>
      rw [if_neg (by simp)]
      apply le_antisymm
      · calc volume (convSet v false b ∩ Set.Ico 0 1) ≤ volume (Set.Icc 0 b.gratio) := by
              apply measure_mono
              rintro x ⟨a, b, _⟩
              simp only [convSet, h, true_and, decide_eq_false_iff_not, not_lt, Set.mem_ofPred_eq] at a
              exact ⟨b, a⟩
          _ = _ := by rw [Real.volume_Icc, sub_zero]
      · calc ENNReal.ofReal b.gratio = volume (Set.Ico 0 b.gratio) := by rw [Real.volume_Ico, sub_zero]
          _ ≤ _ := by
              apply measure_mono
              rintro x ⟨a, c⟩
              refine ⟨?_, a, by linarith⟩
              simp only [convSet, h, true_and, decide_eq_false_iff_not, not_lt, Set.mem_ofPred_eq]
              exact c.le
  · have : convSet v conv b = ∅ := by ext x; simp [convSet, h]
    rw [this, if_neg h, measure_empty, ENNReal.ofReal_zero]

theorem stepSet_eq (bs : List (Branch ℝ)) (v : Nat) (conv : Bool) : stepSet bs v conv
    = {ω | ∃ b, firstReach (ω 0) 0 (bs.map fun b => (b, b.branch)) = some b ∧ ω 1 ∈ convSet v conv b} := rfl

theorem sum_ofReal {α : Type} (l : List α) (f : α → ℝ) (h : ∀ a ∈ l, 0 ≤ f a) :
    (l.map fun a => ENNReal.ofReal (f a)).sum = ENNReal.ofReal ((l.map f).sum) := by
  induction l with
  | nil => simp
  | cons a l ih =>
    rw [List.map_cons, List.sum_cons, List.map_cons, List.sum_cons, ih fun a ha => h a (List.mem_cons_of_mem _ ha),
      ENNReal.ofReal_add (h a (List.mem_cons_self ..))]
    exact List.sum_nonneg fun x hx => by
      obtain ⟨y, hy, rfl⟩ := List.mem_map.mp hx
      exact h y (List.mem_cons_of_mem _ hy)

theorem step_nonneg {l : Level ℝ} (h0 : ∀ b ∈ l.branches, 0 ≤ b.branch)
    (hg : ∀ b ∈ l.branches, 0 ≤ b.gratio ∧ b.gratio ≤ 1) (v : Nat) (conv : Bool) : 0 ≤ step l v conv := by
  unfold step
  refine List.sum_nonneg fun x hx => ?_
  obtain ⟨b, hb, rfl⟩ := List.mem_map.mp hx
  have := hg b hb
  have := h0 b hb
  split
  · apply mul_nonneg this
    cases conv
    · simp [hg b hb]
    · simp [hg b hb]
  · exact le_refl _

theorem weight_nonneg {levels : List (Level ℝ)} (h : Proper levels) (q : List (Nat × Bool)) : 0 ≤ weight levels q := by
  induction q with
  | nil => exact zero_le_one
  | cons x q ih =>
    obtain ⟨u, conv⟩ := x
    rw [weight]
    cases hl : levels[u]? with
    | none => exact le_refl _
    | some l =>
      simp only []
      split
      · exact le_refl _
      · exact mul_nonneg (step_nonneg (h.nonneg u l hl) (h.conv u l hl) _ _) ih

theorem measurable_stepSet {l : Level ℝ} (h0 : ∀ b ∈ l.branches, 0 ≤ b.branch) (v : Nat) (conv : Bool) :
    MeasurableSet (stepSet l.branches v conv) := by
  have hT := measurable_convSet v conv
  have hall : ∀ y ∈ (l.branches.map fun b => (b, b.branch)), 0 ≤ y.2 := by
    intro y hy
    obtain ⟨b, hb, rfl⟩ := List.mem_map.mp hy
    exact h0 b hb
  -- numbers at most zero select the first branch
  have : stepSet l.branches v conv = {ω | (ω 0, ω 1) ∈ reachSet (convSet v conv) 0 (l.branches.map fun b => (b, b.branch))} ∪
      ({ω | ω 0 ≤ 0} ∩ {ω | ∃ b, l.branches.head? = some b ∧ ω 1 ∈ convSet v conv b}) := by
    ext ω
    rw [stepSet_eq]
    simp only [Set.mem_union, Set.mem_inter_iff, Set.mem_ofPred_eq, reachSet]
    by_cases hω : 0 < ω 0
    · constructor
      · intro h; exact .inl ⟨hω, h⟩
      · rintro (⟨_, h⟩ | ⟨h, _⟩)
        · exact h
        · exact absurd hω (not_lt.mpr h)
    · have hω' := not_lt.mp hω
      have hf : firstReach (ω 0) 0 (l.branches.map fun b => (b, b.branch)) = l.branches.head? := by
        cases hb : l.branches with
        | nil => rfl
        | cons b bs =>
          rw [List.map_cons, firstReach, if_pos]
          · rfl
          · have := h0 b (by rw [hb]; exact List.mem_cons_self ..)
            linarith
      rw [hf]
      constructor
      · intro h; exact .inr ⟨hω', h⟩
      · rintro (⟨h, _⟩ | ⟨_, h⟩)
        · exact absurd h hω
        · exact h
  rw [this]
  refine MeasurableSet.union (((measurable_pi_apply 0).prodMk (measurable_pi_apply 1))
    (measurable_reach _ hT _ 0 hall)) (MeasurableSet.inter (measurableSet_le (measurable_pi_apply 0) measurable_const) ?_)
  cases hb : l.branches.head? with
  | none => simp
  | some b =>
    have : {ω : ℕ → ℝ | ∃ b', some b = some b' ∧ ω 1 ∈ convSet v conv b'} = {ω : ℕ → ℝ | ω 1 ∈ convSet v conv b} := by
      ext ω; simp
    rw [this]
    exact measurable_pi_apply 1 (hT b)

theorem stream_step {l : Level ℝ} (h0 : ∀ b ∈ l.branches, 0 ≤ b.branch)
    (hg : ∀ b ∈ l.branches, 0 ≤ b.gratio ∧ b.gratio ≤ 1) (h1 : (l.branches.map (·.branch)).sum = 1) (v : Nat) (conv : Bool) :
    stream (stepSet l.branches v conv) = ENNReal.ofReal (step l v conv) := by
  rw [stepSet_eq, select_law _ (measurable_convSet v conv), List.map_map]
  · unfold step
    rw [← sum_ofReal]
    · congr 1
      apply List.map_congr_left
      intro b hb
      simp only [Function.comp]
      rw [unif_convSet v conv b (hg b hb).1 (hg b hb).2, ← ENNReal.ofReal_mul (h0 b hb)]
      congr 1
      split <;> simp
    · intro b hb
      have := hg b hb
      split
      · apply mul_nonneg (h0 b hb)
        cases conv
        · simp [hg b hb]
        · simp [hg b hb]
      · exact le_refl _
  · intro y hy
    obtain ⟨b, hb, rfl⟩ := List.mem_map.mp hy
    exact h0 b hb
  · rw [List.map_map]
    exact h1.le

theorem stream_shift (n : Nat) {E : Set (ℕ → ℝ)} (hE : MeasurableSet E) : stream (shift n ⁻¹' E) = stream E := by
  have := indep E hE n Set.univ MeasurableSet.univ (fun _ _ _ => Iff.rfl)
  rwa [Set.univ_inter, measure_univ, one_mul] at this

theorem measurable_follows {levels : List (Level ℝ)} (h : Proper levels) (q : List (Nat × Bool)) :
    MeasurableSet (Follows levels q) := by
  induction q with
  | nil => exact MeasurableSet.univ
  | cons x q ih =>
    obtain ⟨u, conv⟩ := x
    rw [Follows]
    cases hl : levels[u]? with
    | none => exact MeasurableSet.empty
    | some l =>
      simp only []
      split
      · exact MeasurableSet.empty
      · exact measurable_shift _ ((measurable_stepSet (h.nonneg u l hl) _ _).inter (measurable_shift 2 ih))

theorem stream_follows {levels : List (Level ℝ)} (h : Proper levels) (q : List (Nat × Bool)) :
    stream (Follows levels q) = ENNReal.ofReal (weight levels q) := by
  induction q with
  | nil => rw [Follows, weight, measure_univ, ENNReal.ofReal_one]
  | cons x q ih =>
    obtain ⟨u, conv⟩ := x
    rw [Follows, weight]
    cases hl : levels[u]? with
    | none => simp
    | some l =>
      simp only []
      by_cases hu : u = 0
      · rw [if_pos hu, if_pos hu]
        simp
      · rw [if_neg hu, if_neg hu]
        have hms := measurable_stepSet (h.nonneg u l hl) (start q) conv
        have hmf := measurable_follows h q
        rw [stream_shift _ (hms.inter (measurable_shift 2 hmf)), indep _ hmf 2 _ hms, ih,
          stream_step (h.nonneg u l hl) (h.conv u l hl) (h.total u l hu hl),
          ENNReal.ofReal_mul (step_nonneg (h.nonneg u l hl) (h.conv u l hl) _ _)]
        intro ω ω' hω
        simp only [stepSet, Set.mem_ofPred_eq]
        rw [hω 0 (by omega), hω 1 (by omega)]

end CGMF.Law

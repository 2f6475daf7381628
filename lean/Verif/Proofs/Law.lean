import Verif.Spec.Law
import Verif.Proofs.Accept
import Mathlib.MeasureTheory.Integral.Lebesgue.Add
import Mathlib.MeasureTheory.Measure.Prod

/-! # Laws of computations with independent uniform random numbers -/

namespace CGMF.Law

open MeasureTheory

instance : IsProbabilityMeasure unif := ⟨by simp [unif]⟩

instance : IsProbabilityMeasure stream := by unfold stream; infer_instance

/-- A number put in front of a sequence. -/
def cons (r : ℝ) (ω : ℕ → ℝ) : ℕ → ℝ
  | 0 => r
  | n + 1 => ω n

/-- The sequence without its first `n` numbers. -/
def shift (n : Nat) (ω : ℕ → ℝ) : ℕ → ℝ := fun k => ω (n + k)

theorem measurable_cons : Measurable fun p : ℝ × (ℕ → ℝ) => cons p.1 p.2 := by
  rw [measurable_pi_iff]
  intro i
  cases i with
  | zero => exact measurable_fst
  | succ n => exact (measurable_pi_apply n).comp measurable_snd

theorem measurable_shift (n : Nat) : Measurable (shift n) := by
  rw [measurable_pi_iff]
  intro i
  exact measurable_pi_apply (n + i)

/-- The first number and the rest are independent and the rest is distributed as the whole. -/
theorem map_cons : (unif.prod stream).map (fun p : ℝ × (ℕ → ℝ) => cons p.1 p.2) = stream := by
  unfold stream
  apply Measure.eq_infinitePi
  intro s t ht
  rw [Measure.map_apply measurable_cons (MeasurableSet.pi s.countable_toSet fun i _ => ht i)]
  have e : (fun p : ℝ × (ℕ → ℝ) => cons p.1 p.2) ⁻¹' (Set.pi s t)
      = (if 0 ∈ s then t 0 else Set.univ) ×ˢ
        Set.pi ((s.preimage Nat.succ (Nat.succ_injective.injOn) : Finset ℕ) : Set ℕ) (fun i => t (i + 1)) := by
    ext ⟨r, ω⟩
    simp only [Set.mem_preimage, Set.mem_pi, Set.mem_prod, Finset.mem_coe, Finset.mem_preimage]
    constructor
    · intro h
      refine ⟨?_, fun i hi => h (i + 1) hi⟩
      split
      · rename_i h0; exact h 0 h0
      · trivial
    · rintro ⟨h1, h2⟩ i hi
      cases i with
      | zero => rw [if_pos hi] at h1; exact h1
      | succ n => exact h2 n hi
  rw [e, Measure.prod_prod, Measure.infinitePi_pi _ (fun i _ => ht (i + 1))]
  by_cases h0 : 0 ∈ s
  · rw [if_pos h0]
    have : s = insert 0 ((s.preimage Nat.succ (Nat.succ_injective.injOn)).image Nat.succ) := by
      ext i
      cases i with
      | zero => simp [h0]
      | succ n => simp
    conv_rhs => rw [this]
    rw [Finset.prod_insert (by simp), Finset.prod_image (fun a _ b _ h => Nat.succ_injective h)]
  · rw [if_neg h0, measure_univ, one_mul]
    have : s = (s.preimage Nat.succ (Nat.succ_injective.injOn)).image Nat.succ := by
      ext i
      cases i with
      | zero => simp [h0]
      | succ n => simp
    conv_rhs => rw [this]
    rw [Finset.prod_image (fun a _ b _ h => Nat.succ_injective h)]

/-- A set of sequences seen from the first number. -/
theorem stream_eq {S : Set (ℕ → ℝ)} (hS : MeasurableSet S) : stream S = ∫⁻ r, stream {ω | cons r ω ∈ S} ∂unif := by
  conv_lhs => rw [← map_cons]
  rw [Measure.map_apply measurable_cons hS, Measure.prod_apply (measurable_cons hS)]
  rfl

theorem measurable_slice {S : Set (ℕ → ℝ)} (hS : MeasurableSet S) (r : ℝ) : MeasurableSet {ω | cons r ω ∈ S} :=
  (measurable_cons.comp (measurable_const.prodMk measurable_id)) hS

/-- The first `n` numbers are independent of the rest, and the rest is distributed as the whole. -/
theorem indep (E : Set (ℕ → ℝ)) (hE : MeasurableSet E) : ∀ (n : Nat) (S : Set (ℕ → ℝ)), MeasurableSet S →
    (∀ ω ω', (∀ i < n, ω i = ω' i) → (ω ∈ S ↔ ω' ∈ S)) → stream (S ∩ shift n ⁻¹' E) = stream S * stream E := by
  intro n
  induction n with
  | zero =>
    intro S _ hl
    have e0 : shift 0 ⁻¹' E = E := by
      ext ω
      have : shift 0 ω = ω := by funext k; simp [shift]
      rw [Set.mem_preimage, this]
    rw [e0]
    by_cases h : ∃ ω, ω ∈ S
    · obtain ⟨ω, h⟩ := h
      have : S = Set.univ := by
        ext ω'
        simp only [Set.mem_univ, iff_true]
        exact (hl ω ω' (by omega)).mp h
      rw [this, Set.univ_inter, measure_univ, one_mul]
    · have : S = ∅ := by
        ext ω
        simp only [Set.mem_empty_iff_false, iff_false]
        exact fun hc => h ⟨ω, hc⟩
      rw [this]
      simp
  | succ n ih =>
    intro S hS hl
    rw [stream_eq (hS.inter (measurable_shift _ hE)), stream_eq hS, ← lintegral_mul_const']
    · apply lintegral_congr
      intro r
      have : {ω | cons r ω ∈ S ∩ shift (n + 1) ⁻¹' E} = {ω | cons r ω ∈ S} ∩ shift n ⁻¹' E := by
        ext ω
        have : shift (n + 1) (cons r ω) = shift n ω := by
          funext k
          show cons r ω (n + 1 + k) = ω (n + k)
          rw [show n + 1 + k = (n + k) + 1 by omega]
          rfl
        constructor
        · rintro ⟨h1, h2⟩
          refine ⟨h1, ?_⟩
          rw [Set.mem_preimage, this] at h2
          exact h2
        · rintro ⟨h1, h2⟩
          refine ⟨h1, ?_⟩
          rw [Set.mem_preimage, this]
          exact h2
      rw [this]
      apply ih _ (measurable_slice hS r)
      intro ω ω' h
      apply hl
      intro i hi
      cases i with
      | zero => rfl
      | succ i => exact h i (by omega)
    · exact measure_ne_top _ _

/-! ## Prefixes -/

@[simp] theorem pre_zero (ω : ℕ → ℝ) : pre ω 0 = [] := rfl

theorem pre_cons (r : ℝ) (ω : ℕ → ℝ) (n : Nat) : pre (cons r ω) (n + 1) = r :: pre ω n := by
  unfold pre
  rw [List.range_succ_eq_map, List.map_cons, List.map_map]
  rfl

theorem pre_add (ω : ℕ → ℝ) (m n : Nat) : pre ω (m + n) = pre ω m ++ pre (shift m ω) n := by
  unfold pre
  rw [List.range_add, List.map_append, List.map_map]
  rfl

@[simp] theorem pre_length (ω : ℕ → ℝ) (n : Nat) : (pre ω n).length = n := by simp [pre]

theorem pre_congr {ω ω' : ℕ → ℝ} {n : Nat} (h : ∀ i < n, ω i = ω' i) : pre ω n = pre ω' n := by
  unfold pre
  apply List.map_congr_left
  intro i hi
  exact h i (List.mem_range.mp hi)

theorem pre_inj {ω : ℕ → ℝ} {n : Nat} {p q : List ℝ} (h : pre ω n = p ++ q) :
    p = pre ω p.length ∧ q = pre (shift p.length ω) q.length ∧ n = p.length + q.length := by
  have hn : n = p.length + q.length := by
    have := congrArg List.length h
    simpa using this
  rw [hn, pre_add] at h
  obtain ⟨h1, h2⟩ := List.append_inj h (by simp)
  exact ⟨h1.symm, h2.symm, hn⟩

/-! ## Computations that look only at the numbers they use -/

variable {α β : Type}

/-- The result depends only on the numbers used. -/
def Local (f : Rnd ℝ α) : Prop := ∀ s a s', f s = .ok (a, s') → ∃ p, s = p ++ s' ∧ ∀ t, f (p ++ t) = .ok (a, t)

/-- The sets of sequences are measurable. -/
def Meas (f : Rnd ℝ α) : Prop := ∀ a n, MeasurableSet (At f a n)

theorem local_pure (a : α) : Local (pure a) := by
  intro s b s' h
  rw [Rnd.pure_ok] at h
  obtain ⟨rfl, rfl⟩ := h
  exact ⟨[], rfl, fun t => rfl⟩

theorem meas_pure (a : α) : Meas (pure a) := by
  intro b n
  have : At (pure a) b n = {_ω | a = b ∧ n = 0} := by
    ext ω
    simp only [At, Set.mem_ofPred_eq, Rnd.pure_ok]
    refine and_congr_right fun _ => ?_
    rw [← List.length_eq_zero_iff, pre_length]
  rw [this]
  exact MeasurableSet.const _

theorem local_bind {f : Rnd ℝ α} {g : α → Rnd ℝ β} (hf : Local f) (hg : ∀ a, Local (g a)) : Local (f >>= g) := by
  intro s b s' h
  obtain ⟨a, s1, h1, h2⟩ := Rnd.bind_ok.mp h
  obtain ⟨p, rfl, hp⟩ := hf s a s1 h1
  obtain ⟨q, rfl, hq⟩ := hg a s1 b s' h2
  refine ⟨p ++ q, by simp, fun t => ?_⟩
  rw [List.append_assoc]
  exact Rnd.bind_ok.mpr ⟨a, q ++ t, hp _, hq t⟩

/-- The number of values used and the result are determined. -/
theorem at_unique {f : Rnd ℝ α} (hf : Local f) {a b : α} {m n : Nat} {ω : ℕ → ℝ} (h1 : ω ∈ At f a m)
    (h2 : ω ∈ At f b n) : a = b ∧ m = n := by
  wlog h : m ≤ n generalizing a b m n
  · obtain ⟨r1, r2⟩ := this h2 h1 (by omega)
    exact ⟨r1.symm, r2.symm⟩
  obtain ⟨k, rfl⟩ := Nat.exists_eq_add_of_le h
  obtain ⟨p, hp, ht⟩ := hf _ _ _ h1
  rw [List.append_nil] at hp
  have h2' : f (pre ω (m + k)) = .ok (b, []) := h2
  rw [pre_add, hp, ht] at h2'
  simp only [Out.ok.injEq, Prod.mk.injEq] at h2'
  have := congrArg List.length h2'.2
  simp only [pre_length, List.length_nil] at this
  exact ⟨h2'.1, by omega⟩

theorem at_dep (f : Rnd ℝ α) (a : α) (n : Nat) (ω ω' : ℕ → ℝ) (h : ∀ i < n, ω i = ω' i) :
    ω ∈ At f a n ↔ ω' ∈ At f a n := by
  simp only [At, Set.mem_ofPred_eq]
  rw [pre_congr h]

/-- Probability as a sum over the number of values used. -/
theorem prob_sum {f : Rnd ℝ α} (hf : Local f) (hm : Meas f) (a : α) : prob f a = ∑' n, stream (At f a n) := by
  unfold prob
  have : {ω | ∃ n, f (pre ω n) = .ok (a, [])} = ⋃ n, At f a n := by
    ext ω
    simp [At]
  rw [this, measure_iUnion _ (fun n => hm a n)]
  intro m n hmn
  rw [Function.onFun, Set.disjoint_left]
  intro ω h1 h2
  exact hmn (at_unique hf h1 h2).2

theorem prob_meas {f : Rnd ℝ α} (hm : Meas f) (a : α) : MeasurableSet {ω | ∃ n, f (pre ω n) = .ok (a, [])} := by
  have : {ω | ∃ n, f (pre ω n) = .ok (a, [])} = ⋃ n, At f a n := by
    ext ω
    simp [At]
  rw [this]
  exact MeasurableSet.iUnion fun n => hm a n

theorem prob_le_one (f : Rnd ℝ α) (a : α) : prob f a ≤ 1 := prob_le_one'
where
  prob_le_one' : stream {ω | ∃ n, f (pre ω n) = .ok (a, [])} ≤ 1 := by
    rw [← measure_univ (μ := stream)]
    exact measure_mono (Set.subset_univ _)

theorem at_bind {f : Rnd ℝ α} {g : α → Rnd ℝ β} (hf : Local f) (b : β) (n : Nat) (ω : ℕ → ℝ) :
    ω ∈ At (f >>= g) b n ↔ ∃ a m, m ≤ n ∧ ω ∈ At f a m ∧ shift m ω ∈ At (g a) b (n - m) := by
  constructor
  · intro h
    obtain ⟨a, s1, h1, h2⟩ := Rnd.bind_ok.mp h
    obtain ⟨p, hp, ht⟩ := hf _ _ _ h1
    obtain ⟨e1, e2, e3⟩ := pre_inj hp
    refine ⟨a, p.length, by omega, ?_, ?_⟩
    · have := ht []
      rw [List.append_nil, e1] at this
      exact this
    · show g a (pre (shift p.length ω) (n - p.length)) = _
      rw [show n - p.length = s1.length by omega, ← e2]
      exact h2
  · rintro ⟨a, m, hmn, h1, h2⟩
    obtain ⟨k, rfl⟩ := Nat.exists_eq_add_of_le hmn
    rw [Nat.add_sub_cancel_left] at h2
    obtain ⟨p, hp, ht⟩ := hf _ _ _ h1
    rw [List.append_nil] at hp
    show (f >>= g) (pre ω (m + k)) = _
    rw [Rnd.bind_ok]
    refine ⟨a, pre (shift m ω) k, ?_, h2⟩
    rw [pre_add, hp]
    exact ht _

theorem meas_bind [Countable α] {f : Rnd ℝ α} {g : α → Rnd ℝ β} (hf : Local f) (hm : Meas f)
    (hg : ∀ a, Meas (g a)) : Meas (f >>= g) := by
  intro b n
  have : At (f >>= g) b n = ⋃ a, ⋃ m, ⋃ (_ : m ≤ n), (At f a m ∩ shift m ⁻¹' At (g a) b (n - m)) := by
    ext ω
    rw [at_bind hf]
    simp only [Set.mem_iUnion, exists_prop, Set.mem_inter_iff, Set.mem_preimage]
  rw [this]
  exact MeasurableSet.iUnion fun a => MeasurableSet.iUnion fun m => MeasurableSet.iUnion fun _ =>
    (hm a m).inter (measurable_shift m (hg a b _))

/-- The law of a sequence of two computations. -/
theorem prob_bind [Countable α] {f : Rnd ℝ α} {g : α → Rnd ℝ β} (hf : Local f) (hm : Meas f)
    (hg : ∀ a, Meas (g a)) (b : β) : prob (f >>= g) b = ∑' a, prob f a * prob (g a) b := by
  have e : {ω | ∃ n, (f >>= g) (pre ω n) = .ok (b, [])}
      = ⋃ x : α × ℕ, (At f x.1 x.2 ∩ shift x.2 ⁻¹' {ω | ∃ n, g x.1 (pre ω n) = .ok (b, [])}) := by
    ext ω
    simp only [Set.mem_ofPred_eq, Set.mem_iUnion, Set.mem_inter_iff, Set.mem_preimage]
    constructor
    · rintro ⟨n, h⟩
      obtain ⟨a, m, h1, h2, h3⟩ := (at_bind hf b n ω).mp h
      exact ⟨(a, m), h2, n - m, h3⟩
    · rintro ⟨⟨a, m⟩, h2, k, h3⟩
      refine ⟨m + k, (at_bind hf b (m + k) ω).mpr ⟨a, m, by omega, h2, ?_⟩⟩
      rw [Nat.add_sub_cancel_left]
      exact h3
  unfold prob
  rw [e, measure_iUnion]
  · rw [ENNReal.tsum_prod' (f := fun i : α × ℕ =>
      stream (At f i.1 i.2 ∩ shift i.2 ⁻¹' {ω | ∃ n, g i.1 (pre ω n) = .ok (b, [])}))]
    apply tsum_congr
    intro a
    have : ∀ m, stream (At f a m ∩ shift m ⁻¹' {ω | ∃ n, g a (pre ω n) = .ok (b, [])})
        = stream (At f a m) * prob (g a) b := fun m => indep _ (prob_meas (hg a) b) m _ (hm a m) (at_dep f a m)
    simp only [this]
    rw [ENNReal.tsum_mul_right, ← prob_sum hf hm]
    rfl
  · rintro ⟨a, m⟩ ⟨a', m'⟩ h
    rw [Function.onFun, Set.disjoint_left]
    rintro ω ⟨h1, _⟩ ⟨h2, _⟩
    obtain ⟨rfl, rfl⟩ := at_unique hf h1 h2
    exact h rfl
  · rintro ⟨a, m⟩
    exact (hm a m).inter (measurable_shift m (prob_meas (hg a) b))

theorem prob_pure_self (a : α) : prob (pure a) a = 1 := by
  unfold prob
  have : {ω | ∃ n, (pure a : Rnd ℝ α) (pre ω n) = .ok (a, [])} = Set.univ := by
    ext ω
    simp only [Set.mem_ofPred_eq, Set.mem_univ, iff_true]
    exact ⟨0, rfl⟩
  rw [this, measure_univ]

theorem prob_pure_ne {a b : α} (h : a ≠ b) : prob (pure a) b = 0 := by
  unfold prob
  have : {ω | ∃ n, (pure a : Rnd ℝ α) (pre ω n) = .ok (b, [])} = ∅ := by
    ext ω
    simp only [Set.mem_ofPred_eq, Set.mem_empty_iff_false, iff_false, not_exists]
    intro n hc
    exact h (Rnd.pure_ok.mp hc).1
  rw [this, measure_empty]

end CGMF.Law

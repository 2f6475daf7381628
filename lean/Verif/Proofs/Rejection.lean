import Verif.Proofs.Law
import Mathlib.MeasureTheory.Function.Floor

/-!
# Rejection samplers

One attempt of every rejection sampler of the code draws a value `lo + floor(N*r)` with one random number
and keeps it when a second one, multiplied by a bound `M`, does not exceed the tabulated weight.
-/

namespace CGMF.Law

open MeasureTheory

/-- One attempt; `none` is a rejection. -/
noncomputable def attempt (lo : Int) (N : Nat) (M : ℝ) (rd : Int → Res ℝ) : Rnd ℝ (Option Int)
  | r1 :: r2 :: s =>
    match rd ⌊r1 * (N : ℝ) + (lo : ℝ)⌋ with
    | .ok v => .ok (if r2 * M ≤ v then some ⌊r1 * (N : ℝ) + (lo : ℝ)⌋ else none, s)
    | .exit => .exit
    | .ub => .ub
  | _ => .more

variable {lo : Int} {N : Nat} {M : ℝ} {rd : Int → Res ℝ}

theorem attempt_ok {s s' : List ℝ} {o : Option Int} : attempt lo N M rd s = .ok (o, s') ↔
    ∃ r1 r2 v, s = r1 :: r2 :: s' ∧ rd ⌊r1 * (N : ℝ) + (lo : ℝ)⌋ = .ok v ∧
      o = if r2 * M ≤ v then some ⌊r1 * (N : ℝ) + (lo : ℝ)⌋ else none := by
  rcases s with _ | ⟨r1, _ | ⟨r2, s⟩⟩
  · simp [attempt]
  · simp [attempt]
  · rw [attempt]
    cases hr : rd ⌊r1 * (N : ℝ) + (lo : ℝ)⌋ with
    | ok v =>
      simp only [Out.ok.injEq, Prod.mk.injEq, List.cons.injEq]
      constructor
      · rintro ⟨rfl, rfl⟩
        exact ⟨r1, r2, v, ⟨rfl, rfl, rfl⟩, hr, rfl⟩
      · rintro ⟨a, b, w, ⟨rfl, rfl, rfl⟩, h2, h3⟩
        rw [hr] at h2
        cases h2
        exact ⟨h3.symm, rfl⟩
    | exit =>
      constructor
      · intro h; cases h
      · rintro ⟨a, b, w, h1, h2, _⟩
        cases h1
        rw [hr] at h2
        cases h2
    | ub =>
      constructor
      · intro h; cases h
      · rintro ⟨a, b, w, h1, h2, _⟩
        cases h1
        rw [hr] at h2
        cases h2

theorem local_attempt : Local (attempt lo N M rd) := by
  intro s o s' h
  obtain ⟨r1, r2, v, rfl, h1, h2⟩ := attempt_ok.mp h
  exact ⟨[r1, r2], rfl, fun t => attempt_ok.mpr ⟨r1, r2, v, rfl, h1, h2⟩⟩

theorem pre_two (ω : ℕ → ℝ) : pre ω 2 = [ω 0, ω 1] := rfl

theorem at_attempt (o : Option Int) (n : Nat) (ω : ℕ → ℝ) : ω ∈ At (attempt lo N M rd) o n ↔
    n = 2 ∧ ∃ v, rd ⌊ω 0 * (N : ℝ) + (lo : ℝ)⌋ = .ok v ∧
      o = if ω 1 * M ≤ v then some ⌊ω 0 * (N : ℝ) + (lo : ℝ)⌋ else none := by
  simp only [At, Set.mem_ofPred_eq, attempt_ok]
  constructor
  · rintro ⟨r1, r2, v, h1, h2, h3⟩
    have hn : n = 2 := by
      have := congrArg List.length h1
      simpa using this
    subst hn
    rw [pre_two] at h1
    simp only [List.cons.injEq, and_true] at h1
    obtain ⟨rfl, rfl⟩ := h1
    exact ⟨rfl, v, h2, h3⟩
  · rintro ⟨rfl, v, h2, h3⟩
    exact ⟨ω 0, ω 1, v, pre_two ω, h2, h3⟩

theorem measurable_idx : Measurable fun ω : ℕ → ℝ => ⌊ω 0 * (N : ℝ) + (lo : ℝ)⌋ :=
  Int.measurable_floor.comp (((measurable_pi_apply 0).mul_const _).add_const _)

theorem meas_attempt : Meas (attempt lo N M rd) := by
  intro o n
  have : At (attempt lo N M rd) o n = ⋃ k : Int, ({ω | ⌊ω 0 * (N : ℝ) + (lo : ℝ)⌋ = k} ∩
      {ω | n = 2 ∧ ∃ v, rd k = .ok v ∧ o = if ω 1 * M ≤ v then some k else none}) := by
    ext ω
    rw [at_attempt]
    simp only [Set.mem_iUnion, Set.mem_inter_iff, Set.mem_ofPred_eq]
    constructor
    · intro h
      exact ⟨_, rfl, h⟩
    · rintro ⟨k, rfl, h⟩
      exact h
  rw [this]
  refine MeasurableSet.iUnion fun k => MeasurableSet.inter (measurable_idx (MeasurableSet.singleton k)) ?_
  have hle : ∀ v, MeasurableSet {ω : ℕ → ℝ | ω 1 * M ≤ v} := fun v =>
    measurableSet_le ((measurable_pi_apply 1).mul_const _) measurable_const
  by_cases hn : n = 2
  · cases hr : rd k with
    | ok v =>
      by_cases h1 : o = some k
      · have : {ω : ℕ → ℝ | n = 2 ∧ ∃ w, Res.ok v = .ok w ∧ o = if ω 1 * M ≤ w then some k else none}
            = {ω : ℕ → ℝ | ω 1 * M ≤ v} := by
          ext ω
          simp only [Set.mem_ofPred_eq, hn, true_and, Res.ok.injEq, exists_eq_left', h1]
          by_cases h : ω 1 * M ≤ v <;> simp [h]
        rw [this]
        exact hle v
      · by_cases h2 : o = none
        · have : {ω : ℕ → ℝ | n = 2 ∧ ∃ w, Res.ok v = .ok w ∧ o = if ω 1 * M ≤ w then some k else none}
              = {ω : ℕ → ℝ | ω 1 * M ≤ v}ᶜ := by
            ext ω
            simp only [Set.mem_ofPred_eq, hn, true_and, Res.ok.injEq, exists_eq_left', h2, Set.mem_compl_iff]
            by_cases h : ω 1 * M ≤ v <;> simp [h]
          rw [this]
          exact (hle v).compl
        · have : {ω : ℕ → ℝ | n = 2 ∧ ∃ w, Res.ok v = .ok w ∧ o = if ω 1 * M ≤ w then some k else none} = ∅ := by
            ext ω
            simp only [Set.mem_ofPred_eq, hn, true_and, Res.ok.injEq, exists_eq_left', Set.mem_empty_iff_false,
              iff_false]
            by_cases h : ω 1 * M ≤ v
            · rw [if_pos h]; exact h1
            · rw [if_neg h]; exact h2
          rw [this]
          exact MeasurableSet.empty
    | exit => simp
    | ub => simp
  · simp [hn]

/-- Two numbers of a sequence. -/
theorem stream_two {R : Set (ℝ × ℝ)} (hR : MeasurableSet R) :
    stream {ω | (ω 0, ω 1) ∈ R} = volume {x : ℝ × ℝ | (0 ≤ x.1 ∧ x.1 < 1) ∧ (0 ≤ x.2 ∧ x.2 < 1) ∧ x ∈ R} := by
  have hm : MeasurableSet {ω : ℕ → ℝ | (ω 0, ω 1) ∈ R} :=
    ((measurable_pi_apply 0).prodMk (measurable_pi_apply 1)) hR
  rw [stream_eq hm]
  have e1 : ∀ r, stream {ω | cons r ω ∈ {ω : ℕ → ℝ | (ω 0, ω 1) ∈ R}} = unif (Prod.mk r ⁻¹' R) := by
    intro r
    have hm2 : MeasurableSet {ω : ℕ → ℝ | ω 0 ∈ Prod.mk r ⁻¹' R} :=
      measurable_pi_apply 0 (measurable_prodMk_left hR)
    have : {ω | cons r ω ∈ {ω : ℕ → ℝ | (ω 0, ω 1) ∈ R}} = {ω : ℕ → ℝ | ω 0 ∈ Prod.mk r ⁻¹' R} := rfl
    rw [this, stream_eq hm2]
    have : ∀ q, stream {ω | cons q ω ∈ {ω : ℕ → ℝ | ω 0 ∈ Prod.mk r ⁻¹' R}}
        = (Prod.mk r ⁻¹' R).indicator (fun _ => (1 : ENNReal)) q := by
      intro q
      by_cases hq : q ∈ Prod.mk r ⁻¹' R
      · rw [Set.indicator_of_mem hq]
        have : {ω | cons q ω ∈ {ω : ℕ → ℝ | ω 0 ∈ Prod.mk r ⁻¹' R}} = Set.univ := by
          ext ω
          simp only [Set.mem_univ, iff_true]
          exact hq
        rw [this, measure_univ]
      · rw [Set.indicator_of_notMem hq]
        have : {ω | cons q ω ∈ {ω : ℕ → ℝ | ω 0 ∈ Prod.mk r ⁻¹' R}} = ∅ := by
          ext ω
          simp only [Set.mem_empty_iff_false, iff_false]
          exact hq
        rw [this, measure_empty]
    simp only [this]
    rw [lintegral_indicator (measurable_prodMk_left hR), setLIntegral_const, one_mul]
  simp only [e1]
  rw [← Measure.prod_apply hR]
  unfold unif
  rw [Measure.prod_restrict, Measure.restrict_apply hR, ← Measure.volume_eq_prod]
  congr 1
  ext ⟨a, b⟩
  simp only [Set.mem_inter_iff, Set.mem_prod, Set.mem_Ico, Set.mem_ofPred_eq]
  tauto

/-- Probability of one accepted value. -/
theorem prob_attempt_some (hM : 0 < M) (i : Int) (h0 : 0 ≤ i) (hi : i < N) (v : ℝ) (hr : rd (lo + i) = .ok v)
    (hv : 0 ≤ v) : prob (attempt lo N M rd) (some (lo + i)) = ENNReal.ofReal (1 / N * min 1 (v / M)) := by
  rw [← Accept.volume_region lo i N M v h0 hi hM hv]
  unfold prob
  have hR : MeasurableSet {x : ℝ × ℝ | ⌊x.1 * (N : ℝ) + (lo : ℝ)⌋ = lo + i ∧ x.2 * M ≤ v} := by
    refine MeasurableSet.inter ?_ (measurableSet_le (measurable_snd.mul_const _) measurable_const)
    exact (Int.measurable_floor.comp ((measurable_fst.mul_const _).add_const _)) (MeasurableSet.singleton (lo + i))
  have := stream_two hR
  have e : {ω | ∃ n, attempt lo N M rd (pre ω n) = .ok (some (lo + i), [])}
      = {ω : ℕ → ℝ | (ω 0, ω 1) ∈ {x : ℝ × ℝ | ⌊x.1 * (N : ℝ) + (lo : ℝ)⌋ = lo + i ∧ x.2 * M ≤ v}} := by
    ext ω
    simp only [Set.mem_ofPred_eq]
    constructor
    · rintro ⟨n, h⟩
      obtain ⟨rfl, w, h1, h2⟩ := (at_attempt _ n ω).mp h
      split at h2
      · rename_i hle
        simp only [Option.some.injEq] at h2
        rw [← h2, hr] at h1
        cases h1
        exact ⟨h2.symm, hle⟩
      · cases h2
    · rintro ⟨h1, h2⟩
      refine ⟨2, (at_attempt _ 2 ω).mpr ⟨rfl, v, ?_, ?_⟩⟩
      · rw [h1]; exact hr
      · rw [if_pos h2, h1]
  rw [e, this]
  rfl

/-- Almost every random number is in `[0,1)`. -/
theorem stream_unit (i : Nat) : stream {ω | ¬ (0 ≤ ω i ∧ ω i < 1)} = 0 := by
  have h : stream.map (fun ω : ℕ → ℝ => ω i) = unif := Measure.infinitePi_map_eval (fun _ => unif) i
  have hm : MeasurableSet {x : ℝ | ¬ (0 ≤ x ∧ x < 1)} := (measurableSet_Ico (a := (0 : ℝ)) (b := 1)).compl
  have : stream {ω | ¬ (0 ≤ ω i ∧ ω i < 1)} = (stream.map (fun ω : ℕ → ℝ => ω i)) {x | ¬ (0 ≤ x ∧ x < 1)} := by
    rw [Measure.map_apply (measurable_pi_apply i) hm]
    rfl
  rw [this, h]
  unfold unif
  rw [Measure.restrict_apply hm]
  have : {x : ℝ | ¬ (0 ≤ x ∧ x < 1)} ∩ Set.Ico 0 1 = ∅ := by
    ext x
    simp only [Set.mem_inter_iff, Set.mem_ofPred_eq, Set.mem_Ico, Set.mem_empty_iff_false, iff_false]
    exact fun h => h.1 h.2
  rw [this, measure_empty]

/-- The value proposed from a number in `[0,1)`. -/
theorem idx_range (hN : 0 < N) {r : ℝ} (h0 : 0 ≤ r) (h1 : r < 1) :
    0 ≤ ⌊r * (N : ℝ) + (lo : ℝ)⌋ - lo ∧ ⌊r * (N : ℝ) + (lo : ℝ)⌋ - lo < N := by
  rw [Int.floor_add_intCast, add_sub_cancel_right]
  have hN' : (0 : ℝ) < N := by exact_mod_cast hN
  refine ⟨Int.floor_nonneg.mpr (by positivity), ?_⟩
  rw [Int.floor_lt]
  push_cast
  nlinarith

/-- The value proposed is one of the `N` values, with probability one. -/
theorem prob_attempt_out (hN : 0 < N) (k : Int) (hk : k < lo ∨ lo + N ≤ k) :
    prob (attempt lo N M rd) (some k) = 0 := by
  refine measure_mono_null ?_ (stream_unit 0)
  rintro ω ⟨n, h⟩ hc
  obtain ⟨rfl, v, h1, h2⟩ := (at_attempt _ n ω).mp h
  split at h2
  · simp only [Option.some.injEq] at h2
    have := idx_range (lo := lo) hN hc.1 hc.2
    omega
  · cases h2

/-- Sum of the probabilities of a computation that ends with probability one. -/
theorem prob_total {α : Type} [Countable α] {f : Rnd ℝ α} (hf : Local f) (hm : Meas f)
    (h : stream {ω | ¬ ∃ a n, f (pre ω n) = .ok (a, [])} = 0) : ∑' a, prob f a = 1 := by
  unfold prob
  rw [← measure_iUnion]
  · have : (⋃ a, {ω | ∃ n, f (pre ω n) = .ok (a, [])})ᶜ = {ω | ¬ ∃ a n, f (pre ω n) = .ok (a, [])} := by
      ext ω
      simp only [Set.mem_compl_iff, Set.mem_iUnion, Set.mem_ofPred_eq]
    rw [← this] at h
    rw [← prob_compl_eq_zero_iff (MeasurableSet.iUnion fun a => prob_meas hm a)]
    exact h
  · intro a b hab
    rw [Function.onFun, Set.disjoint_left]
    rintro ω ⟨n, h1⟩ ⟨m, h2⟩
    exact hab (at_unique hf (ω := ω) h1 h2).1
  · exact fun a => prob_meas hm a

/-- Different results exclude one another. -/
theorem prob_sum_le {α : Type} {f : Rnd ℝ α} (hf : Local f) (hm : Meas f) (s : Finset α) :
    ∑ a ∈ s, prob f a ≤ 1 := by
  unfold prob
  rw [← measure_biUnion_finset, ← measure_univ (μ := stream)]
  · exact measure_mono (Set.subset_univ _)
  · intro a _ b _ hab
    rw [Function.onFun, Set.disjoint_left]
    rintro ω ⟨n, h1⟩ ⟨m, h2⟩
    exact hab (at_unique hf (ω := ω) h1 h2).1
  · exact fun a _ => prob_meas hm a

/-- Nothing else can happen when the probabilities of some results add up to one. -/
theorem prob_zero_of_sum {α : Type} {f : Rnd ℝ α} (hf : Local f) (hm : Meas f) (s : Finset α)
    (h : ∑ a ∈ s, prob f a = 1) (b : α) (hb : b ∉ s) : prob f b = 0 := by
  classical
  have := prob_sum_le hf hm (insert b s)
  rw [Finset.sum_insert hb, h] at this
  have h2 : prob f b + 1 ≤ 0 + 1 := by rw [zero_add]; exact this
  exact le_antisymm ((ENNReal.add_le_add_iff_right ENNReal.one_ne_top).mp h2) bot_le

/-- Sum over the values of an attempt. -/
theorem tsum_attempt (hN : 0 < N) (F : Int → ENNReal) :
    ∑' k, prob (attempt lo N M rd) (some k) * F k
      = ∑ i ∈ Finset.range N, prob (attempt lo N M rd) (some (lo + (i : Int))) * F (lo + (i : Int)) := by
  have : ∑ i ∈ Finset.range N, prob (attempt lo N M rd) (some (lo + (i : Int))) * F (lo + (i : Int))
      = ∑ k ∈ (Finset.range N).image (fun i : Nat => lo + (i : Int)), prob (attempt lo N M rd) (some k) * F k := by
    rw [Finset.sum_image]
    intro a _ b _ h
    simp only [] at h
    omega
  rw [this]
  apply tsum_eq_sum
  intro k hk
  rw [prob_attempt_out hN k, zero_mul]
  by_contra hc
  rw [not_or, not_lt, not_le] at hc
  apply hk
  rw [Finset.mem_image]
  exact ⟨(k - lo).toNat, Finset.mem_range.mpr (by omega), by omega⟩

theorem tsum_opt (F : Option Int → ENNReal) : ∑' o, F o = F none + ∑' k, F (some k) := by
  classical
  rw [ENNReal.tsum_eq_add_tsum_ite none]
  congr 1
  have hinj : Function.Injective (some : Int → Option Int) := Option.some_injective _
  have := hinj.tsum_eq (f := fun o => if o = none then 0 else F o) (by
    intro o ho
    cases o with
    | none => simp at ho
    | some k => exact ⟨k, rfl⟩)
  rw [show (∑' k, F (some k)) = ∑' c : Int, (fun o => if o = none then 0 else F o) (some c) by simp]
  refine Eq.trans ?_ this.symm
  apply tsum_congr
  intro o
  congr

/-- A loop that repeats an attempt until it succeeds and goes on with the accepted value. -/
structure Loop {β : Type} (lo : Int) (N : Nat) (M : ℝ) (rd : Int → Res ℝ) (g : Int → Rnd ℝ β) (f : Rnd ℝ β) : Prop where
  step : ∀ s, f s = (attempt lo N M rd >>= fun o => match o with | none => f | some k => g k) s

variable {β : Type} {g : Int → Rnd ℝ β} {f : Rnd ℝ β}

theorem local_loop (h : Loop lo N M rd g f) (hg : ∀ k, Local (g k)) : Local f := by
  intro s
  induction hn : s.length using Nat.strong_induction_on generalizing s with
  | _ n ih =>
    intro b s' hs
    rw [h.step] at hs
    obtain ⟨o, s1, h1, h2⟩ := Rnd.bind_ok.mp hs
    obtain ⟨r1, r2, v, rfl, e1, e2⟩ := attempt_ok.mp h1
    have hat : ∀ t, attempt lo N M rd (r1 :: r2 :: t) = .ok (o, t) := fun t =>
      attempt_ok.mpr ⟨r1, r2, v, rfl, e1, e2⟩
    cases o with
    | none =>
      obtain ⟨p, rfl, hp⟩ := ih s1.length (by rw [← hn]; simp) s1 rfl b s' h2
      refine ⟨r1 :: r2 :: p, rfl, fun t => ?_⟩
      rw [h.step]
      exact Rnd.bind_ok.mpr ⟨none, p ++ t, hat _, hp t⟩
    | some k =>
      obtain ⟨p, rfl, hp⟩ := hg k s1 b s' h2
      refine ⟨r1 :: r2 :: p, rfl, fun t => ?_⟩
      rw [h.step]
      exact Rnd.bind_ok.mpr ⟨some k, p ++ t, hat _, hp t⟩

theorem meas_loop (h : Loop lo N M rd g f) (hg : ∀ k, Meas (g k)) : Meas f := by
  intro b n
  induction n using Nat.strong_induction_on with
  | _ n ih =>
    have : At f b n = (⋃ (_ : 2 ≤ n), (At (attempt lo N M rd) none 2 ∩ shift 2 ⁻¹' At f b (n - 2))) ∪
        ⋃ k, ⋃ (_ : 2 ≤ n), (At (attempt lo N M rd) (some k) 2 ∩ shift 2 ⁻¹' At (g k) b (n - 2)) := by
      ext ω
      have e : ω ∈ At f b n ↔
          ω ∈ At (attempt lo N M rd >>= fun o => match o with | none => f | some k => g k) b n := by
        simp only [At, Set.mem_ofPred_eq]
        rw [h.step]
      rw [e, at_bind local_attempt]
      simp only [Set.mem_union, Set.mem_iUnion, exists_prop, Set.mem_inter_iff, Set.mem_preimage]
      constructor
      · rintro ⟨o, m, h1, h2, h3⟩
        obtain ⟨rfl, _⟩ := (at_attempt o m ω).mp h2
        cases o with
        | none => exact .inl ⟨h1, h2, h3⟩
        | some k => exact .inr ⟨k, h1, h2, h3⟩
      · rintro (⟨h1, h2, h3⟩ | ⟨k, h1, h2, h3⟩)
        · exact ⟨none, 2, h1, h2, h3⟩
        · exact ⟨some k, 2, h1, h2, h3⟩
    rw [this]
    refine MeasurableSet.union (MeasurableSet.iUnion fun h2 => ?_) (MeasurableSet.iUnion fun k =>
      MeasurableSet.iUnion fun _ => (meas_attempt _ _).inter (measurable_shift 2 (hg k b _)))
    exact (meas_attempt _ _).inter (measurable_shift 2 (ih (n - 2) (by omega)))

/-- **Law of a rejection sampler.**  The loop ends with `b` with the probability obtained by choosing the value
`lo + i` with probability proportional to its weight. -/
theorem prob_loop (h : Loop lo N M rd g f) (hg : ∀ k, Meas (g k)) (hM : 0 < M) (w : Nat → ℝ)
    (hr : ∀ i < N, rd (lo + (i : Int)) = .ok (w i)) (hw : ∀ i < N, 0 ≤ w i) (hwM : ∀ i < N, w i ≤ M)
    (hs : 0 < ∑ i ∈ Finset.range N, w i) (b : β) :
    prob f b = ∑ i ∈ Finset.range N, ENNReal.ofReal (w i / ∑ j ∈ Finset.range N, w j) * prob (g (lo + (i : Int))) b := by
  have hN : 0 < N := by
    rcases Nat.eq_zero_or_pos N with rfl | h0
    · simp at hs
    · exact h0
  have hN' : (0 : ℝ) < N := by exact_mod_cast hN
  set S := ∑ i ∈ Finset.range N, w i with hS
  have hp : ∀ i ∈ Finset.range N, prob (attempt lo N M rd) (some (lo + (i : Int))) = ENNReal.ofReal (w i / (N * M)) := by
    intro i hi
    rw [Finset.mem_range] at hi
    rw [prob_attempt_some hM i (by omega) (by omega) (w i) (hr i hi) (hw i hi),
      min_eq_right ((div_le_one hM).mpr (hwM i hi))]
    congr 1
    field_simp
  -- total
  have htot : ∑' o, prob (attempt lo N M rd) o = 1 := by
    apply prob_total local_attempt meas_attempt
    refine measure_mono_null ?_ (stream_unit 0)
    intro ω hω hc
    apply hω
    have hi := idx_range (lo := lo) hN hc.1 hc.2
    have := hr (⌊ω 0 * (N : ℝ) + (lo : ℝ)⌋ - lo).toNat (by omega)
    rw [show lo + (((⌊ω 0 * (N : ℝ) + (lo : ℝ)⌋ - lo).toNat : Nat) : Int) = ⌊ω 0 * (N : ℝ) + (lo : ℝ)⌋ by omega] at this
    exact ⟨_, 2, (at_attempt _ 2 ω).mpr ⟨rfl, _, this, rfl⟩⟩
  have hsome : ∑' k, prob (attempt lo N M rd) (some k) = ENNReal.ofReal (S / (N * M)) := by
    have := tsum_attempt (lo := lo) (M := M) (rd := rd) hN (fun _ => 1)
    simp only [mul_one] at this
    rw [this, Finset.sum_congr rfl hp, ← ENNReal.ofReal_sum_of_nonneg, hS, Finset.sum_div]
    intro i hi
    exact div_nonneg (hw i (Finset.mem_range.mp hi)) (by positivity)
  rw [tsum_opt, hsome] at htot
  -- the equation satisfied by the law
  have heq : prob f b = prob (attempt lo N M rd) none * prob f b +
      ∑ i ∈ Finset.range N, ENNReal.ofReal (w i / (N * M)) * prob (g (lo + (i : Int))) b := by
    have e : f = (attempt lo N M rd >>= fun o => match o with | none => f | some k => g k) := funext h.step
    have hmb : ∀ o : Option Int, Meas (match o with | none => f | some k => g k) := by
      intro o
      cases o with
      | none => exact meas_loop h hg
      | some k => exact hg k
    conv_lhs => rw [e]
    rw [prob_bind local_attempt meas_attempt hmb, tsum_opt]
    simp only []
    rw [tsum_attempt hN (fun k => prob (g k) b)]
    congr 1
    apply Finset.sum_congr rfl
    intro i hi
    rw [hp i hi]
  set T := ∑ i ∈ Finset.range N, ENNReal.ofReal (w i / (N * M)) * prob (g (lo + (i : Int))) b
  have hc0 : 0 < S / (N * M) := by positivity
  have hfin : prob f b ≠ ⊤ := ne_top_of_le_ne_top ENNReal.one_ne_top (prob_le_one f b)
  have hfin2 : prob (attempt lo N M rd) none ≠ ⊤ := ne_top_of_le_ne_top ENNReal.one_ne_top (prob_le_one _ _)
  have hx : ENNReal.ofReal (S / (N * M)) * prob f b = T := by
    have h1 : prob (attempt lo N M rd) none * prob f b + ENNReal.ofReal (S / (N * M)) * prob f b
        = prob (attempt lo N M rd) none * prob f b + T := by
      rw [← add_mul, htot, one_mul]
      exact heq
    exact (ENNReal.add_right_inj (ENNReal.mul_ne_top hfin2 hfin)).mp h1
  have h2 : prob f b = ENNReal.ofReal ((N * M) / S) * T := by
    rw [← hx, ← mul_assoc, ← ENNReal.ofReal_mul (by positivity)]
    have : ((N : ℝ) * M) / S * (S / (N * M)) = 1 := by field_simp
    rw [this, ENNReal.ofReal_one, one_mul]
  rw [h2, Finset.mul_sum]
  apply Finset.sum_congr rfl
  intro i hi
  rw [← mul_assoc, ← ENNReal.ofReal_mul (by positivity)]
  congr 2
  field_simp

/-- The law when the loop returns the accepted value. -/
theorem prob_loop_pure {f : Rnd ℝ Int} (h : Loop lo N M rd (fun k => pure k) f) (hM : 0 < M) (w : Nat → ℝ)
    (hr : ∀ i < N, rd (lo + (i : Int)) = .ok (w i)) (hw : ∀ i < N, 0 ≤ w i) (hwM : ∀ i < N, w i ≤ M)
    (hs : 0 < ∑ i ∈ Finset.range N, w i) (i : Nat) (hi : i < N) :
    prob f (lo + (i : Int)) = ENNReal.ofReal (w i / ∑ j ∈ Finset.range N, w j) := by
  rw [prob_loop h (fun k => meas_pure k) hM w hr hw hwM hs, Finset.sum_eq_single i]
  · rw [prob_pure_self, mul_one]
  · intro j _ hj
    rw [prob_pure_ne (by omega), mul_zero]
  · intro hc
    exact absurd (Finset.mem_range.mpr hi) hc

end CGMF.Law

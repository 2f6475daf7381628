import Verif.Spec.Initial
import Verif.Props.Gauss
import Verif.Proofs.Kinematics
import Verif.Props.LawStep

/-!
# C109: the initial conditions of a pair as random variables
-/

namespace CGMF.Props

open MeasureTheory ProbabilityTheory CGMF.Law CGMF.Frag CGMF.Pre CGMF.Gauss

section

variable {M : Type} {v : Env ℝ M} {a0 : Int} {c : Comp ℝ} {p : Pair} {E q m s e0 : ℝ}

theorem setting_regular (h : Setting v a0 c p E q m s e0) : Regular v where
  exp := h.exp
  rt := h.rt
  ldp := by
    obtain ⟨d, g, t, e⟩ := h.ldp
    intro z
    rw [e]
    exact pm_lookup d g t z
  b2 := by
    obtain ⟨k, al, t, e⟩ := h.b2
    intro Z A
    rw [e]
    exact pm_spinParameter k al t A Z

theorem setting_tke (h : Setting v a0 c p E q m s e0) : Local (v.tke p.ah) ∧ SM (v.tke p.ah) ∧
    ∀ S, MeasurableSet S → probIn (v.tke p.ah) S = gaussianReal m (s ^ 2).toNNReal S := by
  obtain ⟨av, sd, acn, resc, t, e, h0, h1, ht, hs, hm⟩ := h.tke
  have hi : Yld.heavyIdx acn p.ah = max p.ah (acn - p.ah) := by
    unfold Yld.heavyIdx
    split <;> omega
  have rd : ∀ {xs : List ℝ} {x : ℝ}, xs[(max p.ah (acn - p.ah)).toNat]? = some x → readAt xs (Yld.heavyIdx acn p.ah) = .ok x := by
    intro xs x hx
    rw [hi, readAt_ok_iff]
    exact ⟨le_max_of_le_left h0, hx⟩
  have hp := pairs_tke av sd acn resc p.ah t s (rd ht) (rd hs)
  have ma : Measurable fun r : ℝ × ℝ => (2 * r.1 - 1, 2 * r.2 - 1) := by fun_prop
  rw [e]
  refine ⟨local_pairs hp, sm_pairs hp (ma measurable_disc) ?_, fun S hS => ?_⟩
  · exact measurable_const.add ((measurable_polarValue.comp ma).const_mul s)
  · rw [hm]
    exact C99_tke av sd acn resc p.ah t s ht hs h0 h1 S hS

theorem width_ne {s : ℝ} (h : s ≠ 0) : (s ^ 2).toNNReal ≠ 0 := by
  rw [ne_eq, Real.toNNReal_eq_zero]
  exact not_le.mpr (by positivity)

/-- The law of the loop in the setting. -/
theorem setting_law [Nonempty M] (h : Setting v a0 c p E q m s e0) (fuel n : Nat) {A : Set (ℝ × Exc ℝ)} (hA : MeasurableSet A) :
    probIn (tkeLoop v fuel a0 c p n) {y | (y.1, y.2.1) ∈ A} =
      (∑ i ∈ Finset.range n, gaussianReal m (s ^ 2).toNNReal (Set.Ioi E) ^ i) *
        ∫⁻ t in Set.Ico e0 E, probIn (excite v fuel p (E - t) q) {x | (t, x) ∈ A} ∂gaussianReal m (s ^ 2).toNNReal := by
  obtain ⟨h1, h2, h3⟩ := setting_tke h
  have hb := h.boost
  obtain ⟨ml, mh, e1, e2, hq⟩ := h.masses
  haveI := noAtoms_gaussianReal (μ := m) (width_ne h.width)
  have := loop_law (setting_regular h) hb measurableSet_Ici fuel h1 h2 e1 e2 hq h.energy h3 (measure_singleton E) hA n
  rw [this]
  have i1 : Set.Ioi E ∩ Set.Ici e0 = Set.Ioi E := by
    ext t
    simp only [Set.mem_inter_iff, Set.mem_Ioi, Set.mem_Ici]
    exact ⟨fun h => h.1, fun h' => ⟨h', h.least.trans h'.le⟩⟩
  have i2 : Set.Iio E ∩ Set.Ici e0 = Set.Ico e0 E := by
    ext t
    simp only [Set.mem_inter_iff, Set.mem_Iio, Set.mem_Ici, Set.mem_Ico]
    exact and_comm
  rw [i1, i2]

/-- A run of `excite`. -/
theorem excite_run (hexp : v.exp = Real.exp) {fuel : Nat} {p : Pair} {txe q : ℝ} (h0 : 0 ≤ txe) {l l' : List ℝ} {x : Exc ℝ}
    (h : excite v fuel p txe q l = .ok (x, l')) : ∃ u bl bh w, Shared v fuel p txe u bl bh ∧ x = ⟨u.1, u.2, some w, q⟩ := by
  have hsp : ∀ {A B s j s'}, spin Real.exp v.nj A B s = .ok (j, s') → B ≠ 0 := by
    intro A B s j s' h hB
    unfold spin at h
    rw [if_pos hB] at h
    cases h
  unfold excite at h
  rw [if_neg (not_lt.mpr h0), hexp] at h
  obtain ⟨u, s1, h1, h⟩ := Rnd.bind_ok.mp h
  obtain ⟨bl, _, h2, h⟩ := Rnd.bind_ok.mp h
  obtain ⟨jl, _, h3, h⟩ := Rnd.bind_ok.mp h
  obtain ⟨bh, _, h4, h⟩ := Rnd.bind_ok.mp h
  obtain ⟨jh, _, h5, h⟩ := Rnd.bind_ok.mp h
  obtain ⟨pl, _, _, h⟩ := Rnd.bind_ok.mp h
  obtain ⟨ph, _, _, h⟩ := Rnd.bind_ok.mp h
  obtain ⟨rfl, _⟩ := Rnd.pure_ok.mp h
  refine ⟨u, bl, bh, (jl, jh, pl, ph), ⟨?_, (Rnd.lift_ok.mp h2).1, (Rnd.lift_ok.mp h4).1, hsp h3, hsp h5⟩, rfl⟩
  revert h1
  unfold liftOut
  cases share v.ldp v.tol v.opt fuel p txe <;> simp
  exact fun h _ => h

theorem measurable_spins (w : ℝ × ℝ × Int × Int) : MeasurableSet {x : Exc ℝ | x.spins = some w} := by
  have : {x : Exc ℝ | x.spins = some w} = enc ⁻¹' {y | y.2.2.1 = w ∧ y.2.2.2.2 = true} := by
    ext x
    simp only [Set.mem_ofPred_eq, Set.mem_preimage, enc]
    cases x.spins <;> simp
  rw [this]
  apply measurable_enc
  exact (measurableSet_eq_fun (by fun_prop) measurable_const).inter (measurableSet_eq_fun (by fun_prop) measurable_const)

/-- **C109.**  Joint law of what the loop returns after at most `n` passes: the kinetic energy has the normal distribution,
drawn again while it exceeds the available energy, and given the kinetic energy the spins and parities are independent with
the distributions of their own spin parameters.  `D t` is the probability of the spins and parities at kinetic energy `t`; it is
0 where the sharing or a spin parameter is not defined. -/
theorem C109_joint [Nonempty M] (h : Setting v a0 c p E q m s e0) (fuel n : Nat)
    (J : Int → Nat → ℝ) (hJ : ∀ A k, J A k = if A % 2 = 0 then (k : ℝ) else (k : ℝ) + 1 / 2)
    (P : Int → ℝ → Nat → ℝ) (hP : ∀ A B k, P A B k = (2 * J A k + 1) * Real.exp (-(J A k * (J A k + 1)) / (2 * B)))
    (i j : Nat) (hi : i < v.nj) (hj : j < v.nj) (a b : Int) (ha : a = 1 ∨ a = -1) (hb : b = 1 ∨ b = -1)
    (D : ℝ → ENNReal)
    (hD : ∀ t, e0 ≤ t → t < E → ∀ u bl bh, Shared v fuel p (E - t) u bl bh → D t = ENNReal.ofReal (1 / 4 *
      (P p.al bl i / ∑ k ∈ Finset.range v.nj, P p.al bl k) * (P p.ah bh j / ∑ k ∈ Finset.range v.nj, P p.ah bh k)))
    (hD0 : ∀ t, e0 ≤ t → t < E → (¬ ∃ u bl bh, Shared v fuel p (E - t) u bl bh) → D t = 0)
    (S : Set ℝ) (hS : MeasurableSet S) :
    probIn (tkeLoop v fuel a0 c p n) {y | y.1 ∈ S ∧ y.2.1.spins = some (J p.al i, J p.ah j, a, b)} =
      (∑ k ∈ Finset.range n, gaussianReal m (s ^ 2).toNNReal (Set.Ioi E) ^ k) *
        ∫⁻ t in S ∩ Set.Ico e0 E, D t ∂gaussianReal m (s ^ 2).toNNReal := by
  classical
  have hA : MeasurableSet {y : ℝ × Exc ℝ | y.1 ∈ S ∧ y.2.spins = some (J p.al i, J p.ah j, a, b)} :=
    (measurable_fst hS).inter (measurable_snd (measurable_spins _))
  have hl := setting_law h fuel n hA
  simp only [Set.mem_ofPred_eq] at hl
  rw [hl]
  congr 1
  rw [← lintegral_indicator measurableSet_Ico, ← lintegral_indicator (hS.inter measurableSet_Ico)]
  apply lintegral_congr
  intro t
  simp only [Set.indicator_apply, Set.mem_inter_iff]
  by_cases ht : t ∈ Set.Ico e0 E
  · rw [if_pos ht]
    by_cases hs : t ∈ S
    · rw [if_pos ⟨hs, ht⟩]
      have htxe : 0 ≤ E - t := by linarith [ht.2]
      by_cases hg : ∃ u bl bh, Shared v fuel p (E - t) u bl bh
      · obtain ⟨u, bl, bh, hsh⟩ := hg
        rw [hD t ht.1 ht.2 u bl bh hsh, ← C108_joint v h.exp h.nj fuel p (E - t) q htxe u hsh.1 bl bh hsh.2.1 hsh.2.2.1 hsh.2.2.2.1
          hsh.2.2.2.2 J hJ P hP i j hi hj a b ha hb]
        unfold probIn prob
        congr 1
        ext ω
        simp only [Set.mem_ofPred_eq, hs, true_and]
        constructor
        · rintro ⟨k, x, h1, h2⟩
          obtain ⟨u', bl', bh', w, hsh', rfl⟩ := excite_run h.exp htxe h1
          have : u' = u := by
            have := hsh'.1.symm.trans hsh.1
            simpa using this
          subst this
          simp only at h2
          rw [h2] at h1
          exact ⟨k, h1⟩
        · rintro ⟨k, h1⟩
          exact ⟨k, _, h1, rfl⟩
      · rw [hD0 t ht.1 ht.2 hg]
        unfold probIn
        have : {ω : ℕ → ℝ | ∃ n x, excite v fuel p (E - t) q (pre ω n) = .ok (x, []) ∧
            x ∈ {x : Exc ℝ | t ∈ S ∧ x.spins = some (J p.al i, J p.ah j, a, b)}} = ∅ := by
          ext ω
          simp only [Set.mem_ofPred_eq, Set.mem_empty_iff_false, iff_false, not_exists, not_and]
          intro k x h1
          obtain ⟨u, bl, bh, _, hsh, _⟩ := excite_run h.exp htxe h1
          exact absurd ⟨u, bl, bh, hsh⟩ hg
        rw [this, measure_empty]
    · rw [if_neg (fun hc => hs hc.1)]
      unfold probIn
      simp [hs]
  · rw [if_neg ht, if_neg (fun hc => ht hc.2)]

/-! ## The kinetic energy alone -/

theorem jm_discrete {κ α : Type} [Countable κ] [MeasurableSpace κ] [MeasurableSingletonClass κ] [MeasurableSpace α] {g : κ → Rnd ℝ α}
    (h : ∀ k, SM (g k)) : JM g := fun n =>
  PM.cases (k := fun x : κ × (ℕ → ℝ) => x.1) (fun i => measurable_fst (measurableSet_singleton i))
    (r := fun i x => outAt (g i) n x.2) fun i => (h i n).comp measurable_snd

/-- Something that ends, before something that always ends. -/
theorem ends_bind {α β : Type} [MeasurableSpace α] [MeasurableSpace β] [Nonempty α] [Nonempty β] {f : Rnd ℝ α} {g : α → Rnd ℝ β}
    (hl : Local f) (hf : SM f) (hlg : ∀ a, Local (g a)) (hg : JM g) (h1 : probIn f Set.univ = 1)
    (h2 : ∀ a, probIn (g a) Set.univ = 1) : probIn (f >>= g) Set.univ = 1 := by
  rw [probIn_bind hl hf hlg hg MeasurableSet.univ]
  simp only [h2]
  rw [lintegral_const, law_apply hl hf MeasurableSet.univ, h1, one_mul]

theorem sm_of_meas {α : Type} [Countable α] [MeasurableSpace α] {f : Rnd ℝ α} (h : Meas f) : SM f := fun n =>
  PM.countable fun a => by
    have : {ω | outAt f n ω = some a} = At f a n := by
      ext ω
      exact outAt_eq
    rw [this]
    exact h a n

theorem total_countable {α : Type} [Countable α] {f : Rnd ℝ α} (hl : Local f) (hm : Meas f) :
    probIn f Set.univ = ∑' a, prob f a := by
  unfold probIn prob
  have : {ω : ℕ → ℝ | ∃ n a, f (pre ω n) = .ok (a, []) ∧ a ∈ (Set.univ : Set α)} = ⋃ a, {ω | ∃ n, f (pre ω n) = .ok (a, [])} := by
    ext ω
    simp only [Set.mem_univ, and_true, Set.mem_ofPred_eq, Set.mem_iUnion]
    exact ⟨fun ⟨n, a, h⟩ => ⟨a, n, h⟩, fun ⟨a, n, h⟩ => ⟨n, a, h⟩⟩
  rw [this, measure_iUnion _ (fun a => prob_meas hm a)]
  intro a b hab
  rw [Function.onFun, Set.disjoint_left]
  rintro ω ⟨k, h1⟩ ⟨l, h2⟩
  exact hab (at_unique hl h1 h2).1

theorem spin_ends (nj : Nat) (hnj : 0 < nj) (A : Int) {B : ℝ} (hB : B ≠ 0) :
    probIn (pickSpin nj (spinProb Real.exp nj A B)) Set.univ = 1 := by
  have hl := local_pickSpin nj (spinProb Real.exp nj A B)
  have hm := meas_pickSpin nj (spinProb Real.exp nj A B)
  rw [total_countable hl hm]
  set J : Nat → ℝ := fun k => if A % 2 = 0 then (k : ℝ) else (k : ℝ) + 1 / 2 with hJ
  set R : Nat → ℝ := fun k => (2 * J k + 1) * Real.exp (-(J k * (J k + 1)) / (2 * B)) with hR
  have hR0 : ∀ k, 0 < R k := fun k => by
    simp only [hR, hJ]
    split <;> positivity
  have hsum : 0 < ∑ k ∈ Finset.range nj, R k := Finset.sum_pos (fun k _ => hR0 k) ⟨0, Finset.mem_range.mpr hnj⟩
  have hp : ∀ j < nj, prob (pickSpin nj (spinProb Real.exp nj A B)) j = ENNReal.ofReal (R j / ∑ k ∈ Finset.range nj, R k) := by
    intro j hj
    rw [prob_index nj A hB j]
    exact C85_spin nj hnj A B hB j hj J (fun _ => rfl)
  apply le_antisymm
  · rw [← total_countable hl hm]
    exact prob_le_one
  · refine le_trans (le_of_eq ?_) (ENNReal.sum_le_tsum (Finset.range nj))
    rw [Finset.sum_congr rfl fun j hj => hp j (Finset.mem_range.mp hj),
      ← ENNReal.ofReal_sum_of_nonneg fun j _ => (div_pos (hR0 j) hsum).le, ← Finset.sum_div, div_self hsum.ne', ENNReal.ofReal_one]

theorem parity_ends : probIn (parity : Rnd ℝ Int) Set.univ = 1 := by
  unfold probIn
  have : {ω : ℕ → ℝ | ∃ n a, (parity : Rnd ℝ Int) (pre ω n) = .ok (a, []) ∧ a ∈ (Set.univ : Set Int)} = Set.univ := by
    ext ω
    simp only [Set.mem_univ, and_true, Set.mem_ofPred_eq, iff_true]
    exact ⟨1, _, rfl⟩
  rw [this, measure_univ]

theorem excite_ends (hexp : v.exp = Real.exp) (hnj : 0 < v.nj) {fuel : Nat} {p : Pair} {txe q : ℝ} (h0 : 0 ≤ txe) {u : ℝ × ℝ}
    {bl bh : ℝ} (h : Shared v fuel p txe u bl bh) : probIn (excite v fuel p txe q) Set.univ = 1 := by
  rw [excite_eq v hexp fuel p txe q h0 u h.1 bl bh h.2.1 h.2.2.1 h.2.2.2.1 h.2.2.2.2]
  have sp : SM (parity : Rnd ℝ Int) := sm_of_meas meas_parity
  haveI : Nonempty (Exc ℝ) := ⟨⟨0, 0, none, 0⟩⟩
  have l1 : ∀ (i j : Nat) (a : Int), Local ((parity : Rnd ℝ Int) >>= fun b =>
      pure (⟨u.1, u.2, some (spinOf p.al i, spinOf p.ah j, a, b), q⟩ : Exc ℝ)) := fun i j a =>
    local_bind local_parity fun _ => local_pure _
  have s0 : ∀ x : Exc ℝ, SM (pure x : Rnd ℝ (Exc ℝ)) := fun x n => (JM.pure (γ := Unit) (u := fun _ => x) measurable_const).fix () n
  have s1 : ∀ (i j : Nat) (a : Int), SM ((parity : Rnd ℝ Int) >>= fun b =>
      pure (⟨u.1, u.2, some (spinOf p.al i, spinOf p.ah j, a, b), q⟩ : Exc ℝ)) := fun i j a =>
    sm_bind local_parity sp (jm_discrete fun _ => s0 _)
  have p0 : ∀ x : Exc ℝ, probIn (pure x : Rnd ℝ (Exc ℝ)) Set.univ = 1 := fun x => by
    classical
    rw [probIn_pure]
    simp
  have e1 : ∀ (i j : Nat) (a : Int), probIn ((parity : Rnd ℝ Int) >>= fun b =>
      pure (⟨u.1, u.2, some (spinOf p.al i, spinOf p.ah j, a, b), q⟩ : Exc ℝ)) Set.univ = 1 := fun i j a =>
    ends_bind local_parity sp (fun _ => local_pure _) (jm_discrete fun _ => s0 _) parity_ends fun _ => p0 _
  have l2 : ∀ (i j : Nat), Local ((parity : Rnd ℝ Int) >>= fun a => (parity : Rnd ℝ Int) >>= fun b =>
      pure (⟨u.1, u.2, some (spinOf p.al i, spinOf p.ah j, a, b), q⟩ : Exc ℝ)) := fun i j =>
    local_bind local_parity fun _ => l1 i j _
  have s2 : ∀ (i j : Nat), SM ((parity : Rnd ℝ Int) >>= fun a => (parity : Rnd ℝ Int) >>= fun b =>
      pure (⟨u.1, u.2, some (spinOf p.al i, spinOf p.ah j, a, b), q⟩ : Exc ℝ)) := fun i j =>
    sm_bind local_parity sp (jm_discrete fun _ => s1 _ _ _)
  have e2 : ∀ (i j : Nat), probIn ((parity : Rnd ℝ Int) >>= fun a => (parity : Rnd ℝ Int) >>= fun b =>
      pure (⟨u.1, u.2, some (spinOf p.al i, spinOf p.ah j, a, b), q⟩ : Exc ℝ)) Set.univ = 1 := fun i j =>
    ends_bind local_parity sp (fun _ => l1 i j _) (jm_discrete fun _ => s1 _ _ _) parity_ends fun _ => e1 _ _ _
  have sh : SM (pickSpin v.nj (spinProb Real.exp v.nj p.ah bh)) := sm_of_meas (meas_pickSpin _ _)
  have sl : SM (pickSpin v.nj (spinProb Real.exp v.nj p.al bl)) := sm_of_meas (meas_pickSpin _ _)
  refine ends_bind (local_pickSpin _ _) sl (fun i => local_bind (local_pickSpin _ _) fun j => l2 i j)
    (jm_discrete fun i => sm_bind (local_pickSpin _ _) sh (jm_discrete fun j => s2 i j)) (spin_ends _ hnj _ h.2.2.2.1) fun i => ?_
  exact ends_bind (local_pickSpin _ _) sh (fun j => l2 i j) (jm_discrete fun j => s2 i j) (spin_ends _ hnj _ h.2.2.2.2) fun j => e2 i j

/-- **C109.**  Where the sharing and the spin parameters are defined, the kinetic energy of the pair is the normal one,
conditioned on leaving a positive excitation energy: the probability of a set of kinetic energies within `n` passes rises
to the normal probability of the part of the set below the available energy, over the normal probability of that range. -/
theorem C109_tke_partial [Nonempty M] (h : Setting v a0 c p E q m s e0) (fuel : Nat) (S : Set ℝ) (hS : MeasurableSet S)
    (hdef : ∀ t ∈ S, e0 ≤ t → t < E → ∃ u bl bh, Shared v fuel p (E - t) u bl bh) :
    Filter.Tendsto (fun n => probIn (tkeLoop v fuel a0 c p n) {y | y.1 ∈ S}) Filter.atTop
      (nhds (gaussianReal m (s ^ 2).toNNReal (S ∩ Set.Ico e0 E) / gaussianReal m (s ^ 2).toNNReal (Set.Iio E))) := by
  classical
  have hA : MeasurableSet {y : ℝ × Exc ℝ | y.1 ∈ S} := measurable_fst hS
  have hl := fun n => setting_law h fuel n hA
  simp only [Set.mem_ofPred_eq] at hl
  have hint : ∫⁻ t in Set.Ico e0 E, probIn (excite v fuel p (E - t) q) {_x | t ∈ S} ∂gaussianReal m (s ^ 2).toNNReal =
      gaussianReal m (s ^ 2).toNNReal (S ∩ Set.Ico e0 E) := by
    rw [← lintegral_indicator_one (hS.inter measurableSet_Ico), ← lintegral_indicator measurableSet_Ico]
    apply lintegral_congr
    intro t
    simp only [Set.indicator_apply, Set.mem_inter_iff]
    by_cases ht : t ∈ Set.Ico e0 E
    · by_cases hs : t ∈ S
      · simp only [ht, hs, and_self, if_true, Pi.one_apply]
        obtain ⟨u, bl, bh, hsh⟩ := hdef t hs ht.1 ht.2
        have := excite_ends h.exp h.nj (q := q) (by linarith [ht.2]) hsh
        simpa using this
      · simp only [ht, hs, if_true, false_and, if_false]
        unfold probIn
        simp
    · simp [ht]
  have hfun : (fun n => probIn (tkeLoop v fuel a0 c p n) {y | y.1 ∈ S}) = fun n =>
      (∑ i ∈ Finset.range n, gaussianReal m (s ^ 2).toNNReal (Set.Ioi E) ^ i) *
        gaussianReal m (s ^ 2).toNNReal (S ∩ Set.Ico e0 E) := by
    funext n
    rw [hl n, hint]
  rw [hfun]
  have hgeo : Filter.Tendsto (fun n => ∑ i ∈ Finset.range n, gaussianReal m (s ^ 2).toNNReal (Set.Ioi E) ^ i) Filter.atTop
      (nhds ((gaussianReal m (s ^ 2).toNNReal (Set.Iio E))⁻¹)) := by
    have e : 1 - gaussianReal m (s ^ 2).toNNReal (Set.Ioi E) = gaussianReal m (s ^ 2).toNNReal (Set.Iio E) := by
      haveI := noAtoms_gaussianReal (μ := m) (width_ne h.width)
      rw [← prob_compl_eq_one_sub measurableSet_Ioi, Set.compl_Ioi]
      exact measure_congr Iio_ae_eq_Iic.symm
    rw [← e, ← ENNReal.tsum_geometric]
    exact ENNReal.tendsto_nat_tsum _
  rw [ENNReal.div_eq_inv_mul]
  exact ENNReal.Tendsto.mul_const hgeo (Or.inr (measure_ne_top _ _))

/-! ## The pair -/

/-- When the second part determines the value of the first. -/
theorem probIn_bind_fixed {α β : Type} {f : Rnd ℝ α} {g : α → Rnd ℝ β} (hl : Local f) (hm : Meas f) (a : α) {S : Set β}
    (hS : MeasurableSet {ω : ℕ → ℝ | ∃ n b, g a (pre ω n) = .ok (b, []) ∧ b ∈ S})
    (hd : ∀ a' s b s', g a' s = .ok (b, s') → b ∈ S → a' = a) : probIn (f >>= g) S = prob f a * probIn (g a) S := by
  have e : {ω : ℕ → ℝ | ∃ n b, (f >>= g) (pre ω n) = .ok (b, []) ∧ b ∈ S} =
      ⋃ k, (At f a k ∩ shift k ⁻¹' {ω | ∃ n b, g a (pre ω n) = .ok (b, []) ∧ b ∈ S}) := by
    ext ω
    simp only [Set.mem_ofPred_eq, Set.mem_iUnion, Set.mem_inter_iff, Set.mem_preimage]
    constructor
    · rintro ⟨n, b, h1, h2⟩
      obtain ⟨a', k, _, h4, h5⟩ := (at_bind hl b n ω).mp h1
      obtain rfl := hd a' _ _ _ h5 h2
      exact ⟨k, h4, n - k, b, h5, h2⟩
    · rintro ⟨k, h4, n, b, h5, h2⟩
      refine ⟨k + n, b, (at_bind hl b (k + n) ω).mpr ⟨a, k, by omega, h4, ?_⟩, h2⟩
      rw [Nat.add_sub_cancel_left]
      exact h5
  have e' : probIn (f >>= g) S = stream {ω : ℕ → ℝ | ∃ n b, (f >>= g) (pre ω n) = .ok (b, []) ∧ b ∈ S} := rfl
  rw [e', e, measure_iUnion, prob_sum hl hm, ← ENNReal.tsum_mul_right]
  · apply tsum_congr
    intro k
    exact indep _ hS k _ (hm a k) fun ω ω' h => at_dep f a k ω ω' h
  · intro k l hkl
    rw [Function.onFun, Set.disjoint_left]
    rintro ω ⟨h1, _⟩ ⟨h2, _⟩
    exact hkl (at_unique hl h1 h2).2
  · exact fun k => (hm a k).inter (measurable_shift k hS)

theorem reg_pair (t : Tab ℝ) (hd : 0 ≤ t.dZ) (hA : t.amin ≤ t.amax) (ac zc : Int) : Local (pair t ac zc) ∧ Meas (pair t ac zc) := by
  obtain ⟨hl, hm⟩ := reg_pickAZ t hd hA
  have e : pair t ac zc = (pickAZ t >>= fun p => Rnd.lift (readAt t.z0 p.1) >>= fun z =>
      (pure (assign ac zc p.1 p.2 ⌊z + 1 / 2⌋) : Rnd ℝ Pair)) := rfl
  have hg : ∀ p : Int × Int, Meas (Rnd.lift (readAt t.z0 p.1) >>= fun z =>
      (pure (assign ac zc p.1 p.2 ⌊z + 1 / 2⌋) : Rnd ℝ Pair)) := by
    intro p
    cases hr : readAt t.z0 p.1 with
    | ok z => rw [lift_ok_eq, pure_bind_eq]; exact meas_pure _
    | exit => exact meas_none fun s a s' hc => by cases hc
    | ub => exact meas_none fun s a s' hc => by cases hc
  rw [e]
  exact ⟨local_bind hl fun _ => local_bind (CGMF.Isotropy.local_lift _) fun _ => local_pure _, meas_bind hl hm hg⟩

/-- **C109.**  Redrawing the kinetic energy does not change the yields: the pair `p` is returned with given kinetic energies,
energies, spins and parities with the probability of its yield (C85) times the probability that the loop over kinetic
energies of that pair returns them. -/
theorem C109_pair [Nonempty M] (h : Setting v a0 c p E q m s e0) (amu : ℝ) (t : Tab ℝ) (hd : 0 ≤ t.dZ) (hAm : t.amin ≤ t.amax)
    (hl : ∃ x, v.mtab p.zl p.al = .ok x) (hh : ∃ x, v.mtab p.zh p.ah = .ok x) (fuel : Nat) (A : Set (ℝ × Exc ℝ)) (hA : MeasurableSet A) :
    probIn (sample v amu t fuel a0 c) {f | f.p = p ∧ (f.tke, f.x) ∈ A} =
      prob (pair t c.ac c.zc) p * probIn (tkeLoop v fuel a0 c p fuel) {y | (y.1, y.2.1) ∈ A} := by
  obtain ⟨xl, hl⟩ := hl
  obtain ⟨xh, hh⟩ := hh
  obtain ⟨h1, h2, _⟩ := setting_tke h
  obtain ⟨ml, mh, e1, e2, hq⟩ := h.masses
  obtain ⟨r1, r2⟩ := loop_reg (setting_regular h) h.boost fuel h1 h2 e1 e2 fuel
  set g : Pair → Rnd ℝ (Frags ℝ M) := fun p => tkeLoop v fuel a0 c p fuel >>= fun r => Rnd.lift (v.mtab p.zl p.al) >>= fun ml =>
    Rnd.lift (v.mtab p.zh p.ah) >>= fun mh =>
      pure ⟨p, r.2.1, r.1, (kinetic amu r.1 p ml mh).1, (kinetic amu r.1 p ml mh).2, r.2.2⟩ with hg
  have hgp : ∀ (ω : ℕ → ℝ), (∃ n b, g p (pre ω n) = .ok (b, []) ∧ b ∈ {f : Frags ℝ M | f.p = p ∧ (f.tke, f.x) ∈ A}) ↔
      ∃ n y, tkeLoop v fuel a0 c p fuel (pre ω n) = .ok (y, []) ∧ y ∈ {y : ℝ × Exc ℝ × M | (y.1, y.2.1) ∈ A} := by
    intro ω
    simp only [hg, hl, hh]
    constructor
    · rintro ⟨n, b, h3, h4, h5⟩
      obtain ⟨r, s1, h6, h7⟩ := Rnd.bind_ok.mp h3
      obtain ⟨rfl, rfl⟩ := Rnd.pure_ok.mp h7
      exact ⟨n, r, h6, h5⟩
    · rintro ⟨n, r, h6, h5⟩
      exact ⟨n, ⟨p, r.2.1, r.1, (kinetic amu r.1 p xl xh).1, (kinetic amu r.1 p xl xh).2, r.2.2⟩,
        by rw [Rnd.bind_of_ok h6]; rfl, rfl, h5⟩
  have hset : {ω : ℕ → ℝ | ∃ n b, g p (pre ω n) = .ok (b, []) ∧ b ∈ {f : Frags ℝ M | f.p = p ∧ (f.tke, f.x) ∈ A}} =
      {ω | ∃ n y, tkeLoop v fuel a0 c p fuel (pre ω n) = .ok (y, []) ∧ y ∈ {y : ℝ × Exc ℝ × M | (y.1, y.2.1) ∈ A}} := by
    ext ω
    exact hgp ω
  obtain ⟨p1, p2⟩ := reg_pair t hd hAm c.ac c.zc
  have e : sample v amu t fuel a0 c = (pair t c.ac c.zc >>= g) := rfl
  rw [e, probIn_bind_fixed p1 p2 p]
  · congr 1
    unfold probIn
    rw [hset]
  · rw [hset]
    letI : MeasurableSpace M := ⊥
    have hA' : MeasurableSet {y : ℝ × Exc ℝ × M | (y.1, y.2.1) ∈ A} :=
      (measurable_fst.prodMk (measurable_fst.comp measurable_snd)) hA
    have : {ω : ℕ → ℝ | ∃ n y, tkeLoop v fuel a0 c p fuel (pre ω n) = .ok (y, []) ∧ y ∈ {y : ℝ × Exc ℝ × M | (y.1, y.2.1) ∈ A}} =
        ⋃ n, {ω | ∃ y ∈ {y : ℝ × Exc ℝ × M | (y.1, y.2.1) ∈ A}, outAt (tkeLoop v fuel a0 c p fuel) n ω = some y} := by
      ext ω
      simp only [Set.mem_ofPred_eq, Set.mem_iUnion, outAt_eq, At]
      exact ⟨fun ⟨n, y, h3, h4⟩ => ⟨n, y, h4, h3⟩, fun ⟨n, y, h3, h4⟩ => ⟨n, y, h4, h3⟩⟩
    rw [this]
    exact MeasurableSet.iUnion fun n => r2 n _ hA'
  · intro a' l b l' h3 h4
    simp only [hg] at h3
    obtain ⟨r, s1, h6, h7⟩ := Rnd.bind_ok.mp h3
    obtain ⟨_, _, _, h7⟩ := Rnd.bind_ok.mp h7
    obtain ⟨_, _, _, h7⟩ := Rnd.bind_ok.mp h7
    obtain ⟨rfl, _⟩ := Rnd.pure_ok.mp h7
    exact h4.1

/-! ## Beyond the tables -/

theorem interp_beyond {grid row : List ℝ} {e : ℝ} (h : ∀ g ∈ grid, g ≤ e) : interpRow grid row e = .ub := by
  have : findEnergyIndex e grid = -1 := by
    unfold findEnergyIndex
    have : grid.tail.findIdx? (fun x => decide (e < x)) = none := by
      rw [List.findIdx?_eq_none_iff]
      intro x hx
      simpa using h x (List.mem_of_mem_tail hx)
    rw [this]
  unfold interpRow
  rw [this]
  rfl

theorem lookup_beyond {d e : ℝ} {grid : List ℝ} {tab : List (List ℝ)} {z : Int} (h : ∀ g ∈ grid, g ≤ e) :
    lookup d grid tab z e = .ub := by
  unfold lookup
  cases hr : readAt tab z with
  | ok row => exact interp_beyond h
  | exit => exact absurd hr (by unfold readAt; split <;> simp)
  | ub => rfl

/-- **C109.**  The kinetic energies are not cut from below: whatever the grid of the level density parameters, a kinetic energy
so small that half of the excitation energy lies above it is drawn with positive probability, and the table is then read
before its start.  So the loop does not return with probability one. -/
theorem C109_undefined (h : Setting v a0 c p E q m s e0) (fuel n : Nat) (dflt : ℝ) (grid : List ℝ) (tab : List (List ℝ))
    (hldp : v.ldp = fun z e => lookup dflt grid tab z e) (g : ℝ) (hg0 : 0 ≤ g) (hg : ∀ x ∈ grid, x ≤ g) :
    gaussianReal m (s ^ 2).toNNReal (Set.Iic (E - 2 * g)) ≤ stream {ω | ∃ k, tkeLoop v fuel a0 c p (n + 1) (pre ω k) = .ub} ∧
      0 < gaussianReal m (s ^ 2).toNNReal (Set.Iic (E - 2 * g)) := by
  obtain ⟨ratio, hrt⟩ := h.rt
  obtain ⟨ml, mh, e1, e2, hq⟩ := h.masses
  constructor
  · rw [← (setting_tke h).2.2 _ measurableSet_Iic]
    unfold probIn
    apply measure_mono
    rintro ω ⟨k, t, h1, h2⟩
    refine ⟨k, ?_⟩
    have ht : t ≤ E - 2 * g := h2
    have hs : share v.ldp v.tol v.opt fuel p (E - t) = .ub := by
      rw [hrt]
      unfold share shareRT
      have hb : ∀ z, v.ldp z ((E - t) / 2) = .ub := fun z => by
        rw [hldp]
        exact lookup_beyond fun x hx => (hg x hx).trans (by linarith)
      simp only [hb]
    rw [tkeLoop_succ e1 e2, Rnd.bind_of_ok h1, ← hq, ← h.energy]
    unfold after excite
    rw [if_neg (by linarith), hs]
    rfl
  · rw [pos_iff_ne_zero]
    intro hc
    have := gaussianReal_absolutelyContinuous' m (width_ne h.width) hc
    rw [Real.volume_Iic] at this
    exact ENNReal.top_ne_zero this

/-! ## The momenta -/

/-- **C109.**  Without pre-fission neutrons and for isotropic fission, the momenta of the fragments are defined, with probability
one, exactly when the kinetic energy is not below the energy of the motion of the nucleus shared by the fragments' masses. -/
theorem C109_momenta (k : Kin.Const) (i : Kin.PfnIn) (hn : i.npre = 0) (hani : i.aniso = none) (hpre : i.preeq = none)
    (mc ml mh : ℝ) (h1 : k.mass i.zc i.ac = .ok mc) (h2 : k.mass i.zl i.al = .ok ml) (h3 : k.mass i.zh i.ah = .ok mh)
    (hmc : 0 < mc) (hml : 0 < ml) (hmh : 0 < mh) (hen : 0 ≤ 2 * k.mn * i.en) :
    Works (Set.Ici ((ml + mh) * (k.mn * i.en) / mc ^ 2)) fun t => Kin.boostPfn k { i with tke := t } := by
  set e0 := (ml + mh) * (k.mn * i.en) / mc ^ 2 with he0
  set p0 : Kin.V3 := ![0, 0, Real.sqrt (2 * k.mn * i.en)] with hp0
  have hnsq : Kin.nsq p0 = 2 * k.mn * i.en := by
    simp [Kin.nsq, hp0, Real.mul_self_sqrt hen]
  have hrun : ∀ t l, Kin.boostPfn k { i with tke := t } l =
      (Kin.split k mc ml mh t none p0 >>= fun f => pure (⟨[], f.1, f.2⟩ : Kin.PfnOut)) l := by
    intro t l
    unfold Kin.boostPfn
    rw [Rnd.bind_of_ok (Kin.sqrtR_run hen l)]
    simp only [Kin.preeqFirst, hpre, hn, hani]
    rw [Rnd.bind_of_ok (rfl : (pure (([] : List Kin.Emit), p0) : Rnd ℝ _) l = .ok (([], p0), l))]
    simp only [List.length_nil, Nat.sub_self, Nat.cast_zero, sub_zero]
    rw [Rnd.bind_of_ok (rfl : Kin.preLoop k i.zc i.ecm 0 0 i.ac p0 l = .ok (([], p0), l)), h1, h2, h3]
    rfl
  have htcm : ∀ t, 0 ≤ 2 * (t - 1 / 2 * (ml + mh) * (Kin.nsq p0 / (mc * mc))) / (1 / ml + 1 / mh) ↔ e0 ≤ t := by
    intro t
    rw [hnsq]
    have hs : 0 < 1 / ml + 1 / mh := by positivity
    rw [le_div_iff₀ hs, zero_mul]
    have : 1 / 2 * (ml + mh) * (2 * k.mn * i.en / (mc * mc)) = e0 := by
      rw [he0]
      field_simp
    rw [this]
    constructor <;> intro h <;> linarith
  have hsplit : ∀ t l f l', Kin.split k mc ml mh t none p0 l = .ok (f, l') →
      0 ≤ 2 * (t - 1 / 2 * (ml + mh) * (Kin.nsq p0 / (mc * mc))) / (1 / ml + 1 / mh) ∧
        ∃ r1 r2, l = r1 :: r2 :: l' ∧ 0 ≤ 1 - (2 * r2 - 1) * (2 * r2 - 1) := by
    intro t l f l' h
    unfold Kin.split Kin.sampleCos Kin.isoCos at h
    obtain ⟨_, s1, g1, k1⟩ := Rnd.bind_ok.mp h
    obtain ⟨_, s2, g2, k2⟩ := Rnd.bind_ok.mp k1
    obtain ⟨r1, s3, g3, k3⟩ := Rnd.bind_ok.mp k2
    obtain ⟨c, s4, g4, k4⟩ := Rnd.bind_ok.mp k3
    obtain ⟨_, s5, g5, k5⟩ := Rnd.bind_ok.mp k4
    obtain ⟨r2, s6, g6, g7⟩ := Rnd.bind_ok.mp g4
    have q1 := (Kin.needs_ok.mp g1).2
    obtain ⟨q2, _, q3⟩ := Kin.sqrtR_ok.mp g2
    obtain ⟨q4, _, q5⟩ := Kin.sqrtR_ok.mp g5
    have q6 := (Rnd.pure_ok.mp k5).2
    obtain ⟨q7, q8⟩ := Rnd.pure_ok.mp g7
    have q9 := Rnd.draw_ok.mp g3
    have q10 := Rnd.draw_ok.mp g6
    refine ⟨q2, r1, r2, ?_, ?_⟩
    · rw [← q1, ← q3, q9, q10]
      first | rw [← q8, ← q5, ← q6] | rw [q8, ← q5, q6] | simp_all
    · first | rw [q7]; exact q4 | rw [← q7] at q4; exact q4 | (rw [q7] at q4; exact q4)
  have hlist : ∀ t ω n, (∃ x, Kin.boostPfn k { i with tke := t } (pre ω n) = .ok (x, [])) ↔
      e0 ≤ t ∧ n = 2 ∧ 0 ≤ 1 - (2 * ω 1 - 1) * (2 * ω 1 - 1) := by
    intro t ω n
    rw [← htcm]
    constructor
    · rintro ⟨x, hx⟩
      rw [hrun] at hx
      obtain ⟨f, s1, hx, hy⟩ := Rnd.bind_ok.mp hx
      obtain ⟨_, hs1⟩ := Rnd.pure_ok.mp hy
      obtain ⟨g1, r1, r2, g2, g3⟩ := hsplit t _ f s1 hx
      first | rw [← hs1] at g2 | rw [hs1] at g2
      have hlen : n = 2 := by simpa using congrArg List.length g2
      subst hlen
      have : pre ω 2 = [ω 0, ω 1] := rfl
      rw [this] at g2
      simp only [List.cons.injEq, and_true] at g2
      exact ⟨g1, rfl, by rw [g2.2]; exact g3⟩
    · rintro ⟨ht, rfl, hc⟩
      have hne : mc ≠ 0 ∧ ml ≠ 0 ∧ mh ≠ 0 ∧ 1 / ml + 1 / mh ≠ 0 := ⟨hmc.ne', hml.ne', hmh.ne', by positivity⟩
      have h : ∃ f, Kin.split k mc ml mh t none p0 (pre ω 2) = .ok (f, []) := by
        unfold Kin.split Kin.sampleCos Kin.isoCos
        simp only
        rw [Rnd.bind_of_ok (Kin.needs_run hne _), Rnd.bind_of_ok (Kin.sqrtR_run ht _),
          Rnd.bind_of_ok (rfl : (Rnd.draw : Rnd ℝ ℝ) (pre ω 2) = .ok (ω 0, [ω 1]))]
        have aux : ∀ F : ℝ → ℝ → Kin.V3 × Kin.V3, ∃ f, (((Rnd.draw : Rnd ℝ ℝ) >>= fun r => pure (2 * r - 1)) >>= fun c =>
            Kin.sqrtR (1 - c * c) >>= fun s => pure (F c s)) [ω 1] = .ok (f, []) := fun F =>
          ⟨F (2 * ω 1 - 1) (Real.sqrt (1 - (2 * ω 1 - 1) * (2 * ω 1 - 1))),
            (Rnd.bind_of_ok (rfl : ((Rnd.draw : Rnd ℝ ℝ) >>= fun r => pure (2 * r - 1)) [ω 1] = .ok (2 * ω 1 - 1, []))).trans
              (Rnd.bind_of_ok (Kin.sqrtR_run hc []))⟩
        exact aux _
      obtain ⟨f, hf⟩ := h
      exact ⟨_, by rw [hrun, Rnd.bind_of_ok hf]; rfl⟩
  refine ⟨fun t => ?_, fun n => ?_, fun t ht => ?_, fun t ht l x => ?_⟩
  · have : (fun l => Kin.boostPfn k { i with tke := t } l) = (Kin.split k mc ml mh t none p0 >>= fun f => pure (⟨[], f.1, f.2⟩ : Kin.PfnOut)) :=
      funext (hrun t)
    show Local (fun l => Kin.boostPfn k { i with tke := t } l)
    rw [this]
    exact local_bind (CGMF.Isotropy.local_split _ _ _ _ _ _) fun _ => local_pure _
  · simp only [hlist]
    have hm : Measurable fun x : ℝ × (ℕ → ℝ) => x.2 1 := (measurable_pi_apply 1).comp measurable_snd
    have h1 : MeasurableSet {x : ℝ × (ℕ → ℝ) | 0 ≤ 1 - (2 * x.2 1 - 1) * (2 * x.2 1 - 1)} :=
      measurableSet_le measurable_const (by fun_prop)
    have h2 : MeasurableSet {x : ℝ × (ℕ → ℝ) | e0 ≤ x.1} := measurable_fst measurableSet_Ici
    exact h2.inter ((MeasurableSet.const (n = 2)).inter h1)
  · unfold probIn
    rw [← measure_univ (μ := stream)]
    apply stream_congr
    intro ω hω
    simp only [Set.mem_univ, and_true, Set.mem_ofPred_eq, iff_true, hlist]
    exact ⟨2, ht, rfl, by have := hω 1; nlinarith [this.1, this.2]⟩
  · intro hx
    rw [hrun] at hx
    obtain ⟨f, s1, hx, hy⟩ := Rnd.bind_ok.mp hx
    exact ht ((htcm t).mp (hsplit t _ f s1 hx).1)

end

/-! ## A setting -/

/-- Masses equal to the mass numbers, no mass excess. -/
noncomputable def c109Kin : Kin.Const := ⟨931, 1, 2 * Real.pi, fun _ _ => .ok 0, fun _ _ => .ok 0⟩

/-- Level density parameter 10 and temperature 1 up to 100 MeV, kinetic energy 170 ± 10, spontaneous fission. -/
noncomputable def c109Env : Env ℝ Kin.PfnOut where
  mass := fun _ => .ok 0
  mtab := fun _ _ => .ok 0
  ldp := fun z e => lookup 5 [0, 100] (List.replicate 60000 [10, 10]) z e
  tol := 1 / 100
  opt := .rt fun _ => 1
  exp := Real.exp
  nj := 50
  b2 := fun Z A U => spinParameter spReal 1 ⟨List.replicate 60000 0, [0, 100], List.replicate 60000 [1, 1]⟩ U A Z
  tke := drawTKE Real.log Real.sqrt (List.replicate 300 170) (List.replicate 300 10) 237 1
  boost := fun t p _ => Kin.boostPfn c109Kin { (⟨94, 237, 0, 0, 97, 40, 140, 54, 0, [], none, none⟩ : Kin.PfnIn) with tke := t }

/-- The pair of the example. -/
def c109Pair : Pair := ⟨97, 40, 140, 54⟩

theorem repl_get {α : Type} (n i : Nat) (x : α) (h : i < n) : (List.replicate n x)[i]? = some x := by
  rw [List.getElem?_replicate, if_pos h]

theorem c109_setting : Setting c109Env 237 (⟨94, 237, 200, 0, 0⟩ : Comp ℝ) c109Pair 200 200 170 10 0 where
  exp := rfl
  nj := by norm_num [c109Env]
  rt := ⟨_, rfl⟩
  ldp := ⟨_, _, _, rfl⟩
  b2 := ⟨_, _, _, rfl⟩
  tke := ⟨_, _, _, _, 170, rfl, by norm_num [c109Pair], by norm_num [c109Pair], repl_get _ _ _ (by norm_num [c109Pair]),
    repl_get _ _ _ (by norm_num [c109Pair]), by norm_num⟩
  width := by norm_num
  boost := by
    have h := C109_momenta c109Kin ⟨94, 237, 0, 0, 97, 40, 140, 54, 0, [], none, none⟩ rfl rfl rfl
      (237 * 931) (97 * 931) (140 * 931) (by simp [Kin.Const.mass, c109Kin]) (by simp [Kin.Const.mass, c109Kin])
      (by simp [Kin.Const.mass, c109Kin]) (by norm_num) (by norm_num) (by norm_num) (by norm_num)
    norm_num at h
    exact h
  masses := ⟨0, 0, rfl, rfl, by norm_num⟩
  energy := by norm_num
  least := by norm_num

/-- For the level density parameter 10 the energy is shared equally. -/
theorem c109_share (t : ℝ) (h0 : 150 ≤ t) (h1 : t ≤ 200) :
    ∃ bl bh, Shared c109Env 5 c109Pair (200 - t) ((200 - t) / 2, (200 - t) / 2) bl bh := by
  have hl : ∀ (z : Int) (e : ℝ), 0 ≤ z → z < 60000 → e < 100 → c109Env.ldp z e = .ok 10 := by
    intro z e hz hz' he
    have hr : readAt (List.replicate 60000 [(10 : ℝ), 10]) z = .ok [10, 10] := by
      rw [readAt_ok_iff]
      exact ⟨hz, repl_get _ _ _ (by omega)⟩
    show lookup 5 [0, 100] (List.replicate 60000 [(10 : ℝ), 10]) z e = .ok 10
    have hi : findEnergyIndex e [(0 : ℝ), 100] = 0 := by
      simp [findEnergyIndex, List.findIdx?_cons, he]
    unfold lookup
    rw [hr]
    show interpRow [0, 100] (rowOf 5 [10, 10]) e = _
    unfold interpRow rowOf
    rw [hi]
    norm_num [readAt, Res.bind]
  have hb : ∀ (A Z : Int) (U : ℝ), 0 < A → 0 ≤ 1000 * Z + A → 1000 * Z + A < 60000 → 0 ≤ U → U < 100 →
      ∃ B, c109Env.b2 Z A U = .ok B ∧ B ≠ 0 := by
    intro A Z U hA hz hz' hU hU'
    have hAr : (0 : ℝ) < A := by exact_mod_cast hA
    obtain ⟨b, T, B, t', h1, _, h3, _⟩ := C108_parameter spReal 1 one_pos (by norm_num [spReal]) (by norm_num [spReal])
      (by norm_num [spReal]) (by norm_num [spReal]) ⟨List.replicate 60000 0, [0, 100], List.replicate 60000 [1, 1]⟩ A Z
      (by simp only [spReal]; positivity) hz 0 [1, 1] (repl_get _ _ _ (by omega)) (repl_get _ _ _ (by omega))
      (Or.inr (by intro v hv; simp at hv; rw [hv]; norm_num)) (by simp) U (by intro g hg; simp at hg; rw [← hg]; exact hU)
      ⟨100, by simp, hU'⟩
    refine ⟨B, ?_, h3.ne'⟩
    show spinParameter spReal 1 _ U A Z = .ok B
    unfold spinParameter
    rw [h1]
    rfl
  have hs : share c109Env.ldp c109Env.tol c109Env.opt 5 c109Pair (200 - t) = .ok ((200 - t) / 2, (200 - t) / 2) := by
    have z1 : (1000 * c109Pair.zl + c109Pair.al : Int) = 40097 := by norm_num [c109Pair]
    have z2 : (1000 * c109Pair.zh + c109Pair.ah : Int) = 54140 := by norm_num [c109Pair]
    show shareRT (c109Env.ldp (1000 * c109Pair.zl + c109Pair.al)) (c109Env.ldp (1000 * c109Pair.zh + c109Pair.ah)) 1 (200 - t) (1 / 100) 5 = _
    rw [z1, z2]
    unfold shareRT
    rw [hl 40097 _ (by norm_num) (by norm_num) (by linarith), hl 54140 _ (by norm_num) (by norm_num) (by linarith)]
    show shareLoop _ _ _ _ _ 5 10 10 = _
    rw [shareLoop]
    have e1 : (10 : ℝ) / (10 * 1 * 1 + 10) * (200 - t) = (200 - t) / 2 := by ring
    have e2 : 200 - t - (200 - t) / 2 = (200 - t) / 2 := by ring
    rw [if_neg (by norm_num)]
    simp only [e1, e2, hl 40097 ((200 - t) / 2) (by norm_num) (by norm_num) (by linarith),
      hl 54140 ((200 - t) / 2) (by norm_num) (by norm_num) (by linarith)]
    norm_num
  obtain ⟨bl, h2, h3⟩ := hb 97 40 ((200 - t) / 2) (by norm_num) (by norm_num) (by norm_num) (by linarith) (by linarith)
  obtain ⟨bh, h4, h5⟩ := hb 140 54 ((200 - t) / 2) (by norm_num) (by norm_num) (by norm_num) (by linarith) (by linarith)
  exact ⟨bl, bh, hs, h2, h4, h3, h5⟩

theorem c109_shared (t : ℝ) (h0 : 150 ≤ t) (h1 : t ≤ 190) : ∃ u bl bh, Shared c109Env 5 c109Pair (200 - t) u bl bh :=
  ⟨_, c109_share t h0 (by linarith)⟩

/-- Kinetic energies between 150 and 190 MeV when 200 MeV are available. -/
example : Filter.Tendsto (fun n => probIn (tkeLoop c109Env 5 237 ⟨94, 237, 200, 0, 0⟩ c109Pair n) {y | y.1 ∈ Set.Icc 150 190})
    Filter.atTop (nhds (gaussianReal 170 ((10 : ℝ) ^ 2).toNNReal (Set.Icc 150 190) / gaussianReal 170 ((10 : ℝ) ^ 2).toNNReal (Set.Iio 200))) := by
  have : Nonempty Kin.PfnOut := ⟨⟨[], 0, 0⟩⟩
  have h := C109_tke_partial c109_setting 5 (Set.Icc 150 190) measurableSet_Icc (fun t ht _ _ => c109_shared t ht.1 ht.2)
  have : Set.Icc (150 : ℝ) 190 ∩ Set.Ico 0 200 = Set.Icc 150 190 := by
    ext t
    simp only [Set.mem_inter_iff, Set.mem_Icc, Set.mem_Ico]
    exact ⟨fun h => h.1, fun h => ⟨h, by linarith [h.1], by linarith [h.2]⟩⟩
  rw [this] at h
  exact h

/-- A kinetic energy that leaves 200 MeV or more is drawn with positive probability. -/
example : 0 < stream {ω | ∃ k, tkeLoop c109Env 5 237 ⟨94, 237, 200, 0, 0⟩ c109Pair 1 (pre ω k) = .ub} := by
  obtain ⟨h1, h2⟩ := C109_undefined c109_setting 5 0 5 [0, 100] (List.replicate 60000 [10, 10]) rfl 100 (by norm_num)
    (by intro x hx; simp at hx; rcases hx with rfl | rfl <;> norm_num)
  exact h2.trans_le h1

open Classical in
/-- Spins one half and zero with both parities positive, at kinetic energies between 150 and 190 MeV. -/
example : ∃ D : ℝ → ENNReal, probIn (tkeLoop c109Env 5 237 ⟨94, 237, 200, 0, 0⟩ c109Pair 3)
      {y | y.1 ∈ Set.Icc 150 190 ∧ y.2.1.spins = some (1 / 2, 0, 1, 1)} =
    (∑ k ∈ Finset.range 3, gaussianReal 170 ((10 : ℝ) ^ 2).toNNReal (Set.Ioi 200) ^ k) *
      ∫⁻ t in Set.Icc 150 190 ∩ Set.Ico 0 200, D t ∂gaussianReal 170 ((10 : ℝ) ^ 2).toNNReal := by
  have : Nonempty Kin.PfnOut := ⟨⟨[], 0, 0⟩⟩
  let J : Int → Nat → ℝ := fun A k => if A % 2 = 0 then (k : ℝ) else (k : ℝ) + 1 / 2
  let P : Int → ℝ → Nat → ℝ := fun A B k => (2 * J A k + 1) * Real.exp (-(J A k * (J A k + 1)) / (2 * B))
  let D : ℝ → ENNReal := fun t =>
    if h : ∃ u bl bh, Shared c109Env 5 c109Pair (200 - t) u bl bh then ENNReal.ofReal (1 / 4 *
      (P c109Pair.al h.choose_spec.choose 0 / ∑ k ∈ Finset.range c109Env.nj, P c109Pair.al h.choose_spec.choose k) *
      (P c109Pair.ah h.choose_spec.choose_spec.choose 0 / ∑ k ∈ Finset.range c109Env.nj, P c109Pair.ah h.choose_spec.choose_spec.choose k))
    else 0
  have hu : ∀ t u bl bh u' bl' bh', Shared c109Env 5 c109Pair (200 - t) u bl bh → Shared c109Env 5 c109Pair (200 - t) u' bl' bh' →
      bl = bl' ∧ bh = bh' := by
    rintro t u bl bh u' bl' bh' ⟨a1, a2, a3, _⟩ ⟨b1, b2, b3, _⟩
    rw [a1] at b1
    cases b1
    rw [a2] at b2
    rw [a3] at b3
    cases b2
    cases b3
    exact ⟨rfl, rfl⟩
  refine ⟨D, ?_⟩
  have h := C109_joint c109_setting 5 3 J (fun _ _ => rfl) P (fun _ _ _ => rfl) 0 0 (by decide) (by decide) 1 1 (Or.inl rfl) (Or.inl rfl) D
    (by
      intro t _ _ u bl bh hs
      have hex : ∃ u bl bh, Shared c109Env 5 c109Pair (200 - t) u bl bh := ⟨u, bl, bh, hs⟩
      obtain ⟨e1, e2⟩ := hu t _ _ _ _ _ _ hs hex.choose_spec.choose_spec.choose_spec
      clear hs
      show D t = _
      simp only [D, dif_pos hex]
      generalize hex.choose_spec.choose_spec.choose = y at *
      subst e2
      generalize hex.choose_spec.choose = x at *
      subst e1
      rfl)
    (by
      intro t _ _ hs
      simp only [D, dif_neg hs])
    (Set.Icc 150 190) measurableSet_Icc
  have j1 : J c109Pair.al 0 = 1 / 2 := by norm_num [J, c109Pair]
  have j2 : J c109Pair.ah 0 = 0 := by norm_num [J, c109Pair]
  rw [j1, j2] at h
  exact h

end CGMF.Props

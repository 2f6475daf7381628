import Verif.Proofs.StepLaw
import Verif.Proofs.ForcedLaw

/-! # Law of one pass of the continuum loop: the sum over the states -/

namespace CGMF.HF

open MeasureTheory CGMF.Law CGMF.MC CGMF.Grid CGMF.Props

/-! ## Forced transitions -/

theorem pick_none (p j : Int) : ∀ (ls : List (Level ℝ)) (i : Nat) (x : ℝ) (b : Option Nat) (s : List ℝ),
    (∀ l ∈ ls, e1Candidate l p j = false) → pickE1 p j ls i x b s = .ok (b, s) := by
  intro ls
  induction ls with
  | nil => intro i x b s _; rfl
  | cons l ls ih =>
    intro i x b s h
    rw [pickE1, if_neg (by rw [h l (by simp)]; simp)]
    exact ih _ _ _ _ fun l' hl' => h l' (by simp [hl'])

theorem closest_none {j : Int} : ∀ {ls : List (Level ℝ)} {i : Nat} {d : Int} {best : Option Nat}, closest j ls i d best = none →
    ∀ l ∈ ls, d ≤ |l.spin2 - 2 * j| := by
  intro ls
  induction ls with
  | nil => intro i d best _ l hl; cases hl
  | cons a ls ih =>
    intro i d best h l hl
    rw [closest] at h
    by_cases hc : |a.spin2 - 2 * j| < d
    · rw [if_pos hc] at h
      obtain ⟨b', hb⟩ := closest_best (j := j) ls (i + 1) |a.spin2 - 2 * j| i
      rw [hb] at h
      cases h
    · rw [if_neg hc] at h
      rcases List.mem_cons.mp hl with rfl | hl
      · exact not_lt.mp hc
      · exact ih h l hl

theorem firstClosest_unique {levels : List (Level ℝ)} {J : Int} {i k : Nat} (h1 : FirstClosest levels J i)
    (h2 : FirstClosest levels J k) : i = k := by
  obtain ⟨l, a1, -, a3, a4⟩ := h1
  obtain ⟨l', b1, -, b3, b4⟩ := h2
  rcases lt_trichotomy i k with h | h | h
  · have := b4 i l h a1
    have := a3 l' (List.mem_of_getElem? b1)
    omega
  · exact h
  · have := a4 k l' h b1
    have := b3 l (List.mem_of_getElem? a1)
    omega

theorem closest_iff (levels : List (Level ℝ)) (j : Int) (i : Nat) :
    closest j levels 0 200 none = some i ↔ FirstClosest levels (2 * j) i := by
  have key : ∀ {i}, closest j levels 0 200 none = some i → FirstClosest levels (2 * j) i := by
    intro i h
    rcases closest_min h with ⟨h4, -⟩ | ⟨k, l, h4, h5, h6, h7, h8⟩
    · cases h4
    · have : i = k := by omega
      subst this
      exact ⟨l, h5, h6, h7, fun k l' hk hl => h8 k l' hk hl⟩
  constructor
  · exact key
  · intro h
    cases hc : closest j levels 0 200 none with
    | none =>
      obtain ⟨l, h1, h2, -⟩ := h
      have := closest_none hc l (List.mem_of_getElem? h1)
      omega
    | some b => rw [firstClosest_unique (key hc) h]

theorem stream_generic : ∀ᵐ ω ∂stream, Generic ω := by
  have h0 : ∀ᵐ ω ∂stream, Inside ω := stream_inside
  filter_upwards [h0, stream_distinct] with ω h1 h2
  exact ⟨h1, h2⟩

theorem preferred_iff (l : Level ℝ) (p j : Int) : Preferred l (2 * j) p ↔ e1Candidate l p j = true := by
  rw [e1Candidate_iff]
  exact Iff.rfl

/-- Law of a forced transition. -/
theorem prob_forced (levels : List (Level ℝ)) (p j : Int) (i : Nat) :
    prob (forced levels p j) i = ENNReal.ofReal (forcedTo levels p (2 * j) i) := by
  unfold forcedTo
  have hcount : (levels.countP fun l => decide (Preferred l (2 * j) p)) = levels.countP fun l => e1Candidate l p j := by
    congr 1
    funext l
    rw [Bool.eq_iff_iff]
    simp [preferred_iff]
  by_cases hp : ∃ l ∈ levels, Preferred l (2 * j) p
  · rw [if_pos hp]
    have h0 : 0 < levels.countP fun l => e1Candidate l p j := by
      obtain ⟨l, h1, h2⟩ := hp
      exact List.countP_pos_iff.mpr ⟨l, h1, (preferred_iff l p j).mp h2⟩
    by_cases hi : ∃ l, levels[i]? = some l ∧ Preferred l (2 * j) p
    · rw [if_pos hi]
      obtain ⟨l, h1, h2⟩ := hi
      have h2 := (preferred_iff l p j).mp h2
      have : prob (forced levels p j) i = stream (Largest (levels.countP fun l => e1Candidate l p j)
          ((levels.take i).countP fun l => e1Candidate l p j)) := by
        apply measure_congr
        refine Filter.eventuallyEq_set.mpr ?_
        filter_upwards [stream_generic] with ω hω
        refine (forced_generic levels p j rfl h0 hω i).trans ?_
        constructor
        · rintro ⟨l', _, _, h⟩; exact h
        · intro h; exact ⟨l, h1, h2, h⟩
      rw [this, stream_largest (rank_lt (fun l => e1Candidate l p j) h1 h2), ← hcount]
      rw [one_div, ENNReal.ofReal_inv_of_pos (by rw [hcount]; exact_mod_cast h0), ENNReal.ofReal_natCast]
    · rw [if_neg hi, ENNReal.ofReal_zero]
      have : prob (forced levels p j) i = stream ∅ := by
        apply measure_congr
        refine Filter.eventuallyEq_set.mpr ?_
        filter_upwards [stream_generic] with ω hω
        refine (forced_generic levels p j rfl h0 hω i).trans ?_
        rw [Set.mem_empty_iff_false, iff_false]
        rintro ⟨l', h1, h2, h⟩
        exact hi ⟨l', h1, (preferred_iff l' p j).mpr h2⟩
      rw [this, measure_empty]
  · rw [if_neg hp]
    have hno : ∀ l ∈ levels, e1Candidate l p j = false := by
      intro l hl
      rw [← Bool.not_eq_true, ← preferred_iff]
      exact fun h => hp ⟨l, hl, h⟩
    have hrun : ∀ s, forced levels p j s = (Rnd.get (closest j levels 0 200 none) : Rnd ℝ Nat) s := by
      intro s
      unfold forced
      rw [Rnd.bind_of_ok (pick_none p j levels 0 (-1) none s hno)]
    by_cases hc : FirstClosest levels (2 * j) i
    · rw [if_pos hc, ENNReal.ofReal_one]
      have : {ω : ℕ → ℝ | ∃ n, forced levels p j (pre ω n) = .ok (i, [])} = Set.univ := by
        ext ω
        simp only [Set.mem_ofPred_eq, Set.mem_univ, iff_true]
        exact ⟨0, by rw [hrun]; exact Rnd.get_ok.mpr ⟨(closest_iff levels j i).mpr hc, rfl⟩⟩
      unfold prob
      rw [this, measure_univ]
    · rw [if_neg hc, ENNReal.ofReal_zero]
      have : {ω : ℕ → ℝ | ∃ n, forced levels p j (pre ω n) = .ok (i, [])} = ∅ := by
        ext ω
        simp only [Set.mem_ofPred_eq, Set.mem_empty_iff_false, iff_false]
        rintro ⟨n, h⟩
        rw [hrun] at h
        exact hc ((closest_iff levels j i).mp (Rnd.get_ok.mp h).1)
      unfold prob
      rw [this, measure_empty]

theorem forcedTo_nonneg (levels : List (Level ℝ)) (p J : Int) (i : Nat) : 0 ≤ forcedTo levels p J i := by
  unfold forcedTo
  split
  · split
    · positivity
    · exact le_rfl
  · split
    · exact zero_le_one
    · exact le_rfl

theorem atLevel_nonneg (levels : List (Level ℝ)) (c : Nat) (Q : MCPoint ℝ → Prop) (i : Nat) : 0 ≤ atLevel levels c Q i := by
  unfold atLevel
  split
  · exact zero_le_one
  · exact le_rfl

theorem stream_forced (m : MCPoint ℝ) (n0 : Nuc ℝ) (Q : MCPoint ℝ → Prop) : stream (Forced m n0 Q) =
    ENNReal.ofReal (∑ i ∈ Finset.range n0.levels.length, forcedTo n0.levels m.p (2 * m.j) i * atLevel n0.levels m.n Q i) := by
  have hu : Forced m n0 Q = ⋃ i ∈ Finset.range n0.levels.length,
      ({ω | ∃ k, forced n0.levels m.p m.j (pre ω k) = .ok (i, [])} ∩ {_ω | ∃ l, n0.levels[i]? = some l ∧ Q (levelPoint m.n i l)}) := by
    ext ω
    simp only [Forced, Set.mem_ofPred_eq, Set.mem_iUnion, Set.mem_inter_iff, Finset.mem_range, exists_prop]
    constructor
    · rintro ⟨k, i, l, h1, h2, h3⟩
      exact ⟨i, (List.getElem?_eq_some_iff.mp h2).1, ⟨k, h1⟩, l, h2, h3⟩
    · rintro ⟨i, -, ⟨k, h1⟩, l, h2, h3⟩
      exact ⟨k, i, l, h1, h2, h3⟩
  rw [hu, measure_biUnion_finset, ENNReal.ofReal_sum_of_nonneg]
  · apply Finset.sum_congr rfl
    intro i _
    by_cases hq : ∃ l, n0.levels[i]? = some l ∧ Q (levelPoint m.n i l)
    · have e1 : atLevel n0.levels m.n Q i = 1 := by unfold atLevel; exact if_pos hq
      rw [e1, mul_one, ← prob_forced]
      unfold prob
      congr 1
      ext ω
      simp only [Set.mem_inter_iff, Set.mem_ofPred_eq, hq, and_true]
    · have e1 : atLevel n0.levels m.n Q i = 0 := by unfold atLevel; exact if_neg hq
      rw [e1, mul_zero, ENNReal.ofReal_zero]
      convert measure_empty (μ := stream)
      ext ω
      simp only [Set.mem_inter_iff, Set.mem_ofPred_eq, hq, and_false, Set.mem_empty_iff_false]
  · intro i _
    exact mul_nonneg (forcedTo_nonneg _ _ _ _) (atLevel_nonneg _ _ _ _)
  · intro a _ b _ hab
    refine Set.disjoint_left.mpr ?_
    rintro ω ⟨⟨k, h1⟩, -⟩ ⟨⟨k', h2⟩, -⟩
    exact hab (at_unique (local_forced _ _ _) (show ω ∈ At _ a k from h1) (show ω ∈ At _ b k' from h2)).1
  · intro i _
    exact (prob_meas (meas_forced _ _ _) i).inter (MeasurableSet.const _)

/-! ## The chance of each state -/

variable {par : Par ℝ} {st : St ℝ} {m : MCPoint ℝ} {n0 n1 : Nuc ℝ} {m0 m1 : Mesh ℝ}

theorem stream_at0 {R : Set ℝ} (hR : MeasurableSet R) : stream {ω | ω 0 ∈ R} = unif R := by
  have hm : MeasurableSet {ω : ℕ → ℝ | ω 0 ∈ R} := (measurable_pi_apply 0) hR
  rw [stream_eq hm]
  have : ∀ r, stream {ω | cons r ω ∈ {ω : ℕ → ℝ | ω 0 ∈ R}} = R.indicator 1 r := by
    intro r
    by_cases h : r ∈ R
    · rw [Set.indicator_of_mem h]
      have : {ω : ℕ → ℝ | cons r ω ∈ {ω : ℕ → ℝ | ω 0 ∈ R}} = Set.univ := by
        ext ω; simpa [cons] using h
      rw [this, measure_univ]; rfl
    · rw [Set.indicator_of_notMem h]
      have : {ω : ℕ → ℝ | cons r ω ∈ {ω : ℕ → ℝ | ω 0 ∈ R}} = ∅ := by
        ext ω; simpa [cons] using h
      rw [this, measure_empty]
  simp only [this]
  rw [lintegral_indicator_one hR]

theorem inBin_nonneg (lo hi : ℝ) (S : Set ℝ) : 0 ≤ inBin lo hi S := ENNReal.toReal_nonneg

theorem ofReal_inBin (lo hi : ℝ) (S : Set ℝ) : ENNReal.ofReal (inBin lo hi S) = unif {r | lo + (hi - lo) * r ∈ S} :=
  ENNReal.ofReal_toReal (measure_ne_top _ _)

theorem stream_moved {mm : Mesh ℝ} {top : ℝ} {k : Nat} {S : Set ℝ} (hS : MeasurableSet S) :
    stream {ω | moved mm top k (ω 0) ∈ S} = ENNReal.ofReal (inBin (binBottom mm top k) (binTop mm k) S) := by
  rw [ofReal_inBin]
  exact stream_at0 ((measurable_moved mm top k) hS)

theorem chance_nonneg (cut top0 top1 : ℝ) (Q : MCPoint ℝ → Prop) (a : Bool × Cell) : 0 ≤ chance cut m n0 n1 m0 m1 top0 top1 Q a := by
  obtain ⟨b, c⟩ := a
  cases b <;> cases c with
  | disc i => exact atLevel_nonneg _ _ _ _
  | cont k idx even =>
    first
    | exact add_nonneg (inBin_nonneg _ _ _) (mul_nonneg (inBin_nonneg _ _ _)
        (Finset.sum_nonneg fun i _ => mul_nonneg (forcedTo_nonneg _ _ _ _) (atLevel_nonneg _ _ _ _)))
    | exact inBin_nonneg _ _ _

theorem stream_const (P : Prop) [Decidable P] : stream {_ω : ℕ → ℝ | P} = ENNReal.ofReal (if P then 1 else 0) := by
  by_cases h : P
  · simp [h]
  · simp [h]

theorem stream_ends (h : Pass par st m n0 n1 m0 m1) (Q : MCPoint ℝ → Prop)
    (hQ : ∀ c p j k, MeasurableSet {e : ℝ | Q ⟨c, p, j, k, e, false⟩}) {l0 l1 : Level ℝ} (hl0 : n0.levels.getLast? = some l0)
    (hl1 : n1.levels.getLast? = some l1) (a : Bool × Cell) :
    stream (Ends par m n0 n1 m0 m1 Q a) = ENNReal.ofReal (chance par.cut m n0 n1 m0 m1 l0.energy l1.energy Q a) := by
  classical
  obtain ⟨b, c⟩ := a
  cases c with
  | disc i =>
    have key : stream (Ends par m n0 n1 m0 m1 Q (b, .disc i)) =
        ENNReal.ofReal (atLevel (if b then n1 else n0).levels (if b then n0.next else m.n) Q i) := by
      cases hl : (if b then n1 else n0).levels[i]? with
      | none =>
        rw [ends_disc_none Q b i hl, measure_empty]
        unfold atLevel
        rw [if_neg (by rintro ⟨l, h1, -⟩; rw [hl] at h1; cases h1), ENNReal.ofReal_zero]
      | some l =>
        rw [ends_disc Q b i hl h.levels0, stream_const]
        unfold atLevel
        congr 1
        have : (∃ l', (if b = true then n1 else n0).levels[i]? = some l' ∧
            Q ⟨if b = true then n0.next else m.n, l'.parity, 0, i, l'.energy, true⟩) ↔
            Q (levelPoint (if b = true then n0.next else m.n) i l) := by
          constructor
          · rintro ⟨l', h1, h2⟩
            rw [hl] at h1
            cases h1
            exact h2
          · intro h2; exact ⟨l, hl, h2⟩
        by_cases hq : Q (levelPoint (if b = true then n0.next else m.n) i l)
        · rw [if_pos hq, if_pos (this.mpr hq)]
        · rw [if_neg hq, if_neg (fun h => hq (this.mp h))]
    rw [key]
    cases b <;> rfl
  | cont k idx even =>
    cases b with
    | true =>
      rw [ends_neutron Q h.other k idx even hl1 h.levels0]
      exact stream_moved (hQ _ _ _ _)
    | false =>
      rw [ends_photon Q k idx even hl0 h.levels1]
      have hlt : MeasurableSet {ω : ℕ → ℝ | moved m0 l0.energy k (ω 0) < l0.energy + par.cut} :=
        measurableSet_lt ((measurable_moved _ _ _).comp (measurable_pi_apply 0)) measurable_const
      have hkeep : MeasurableSet {e : ℝ | l0.energy + par.cut ≤ e ∧ Q ⟨m.n, if even then 1 else -1, idx, k, e, false⟩} :=
        measurableSet_Ici.inter (hQ _ _ _ _)
      have e2 : {ω : ℕ → ℝ | ¬ moved m0 l0.energy k (ω 0) < l0.energy + par.cut ∧
          Q ⟨m.n, if even then 1 else -1, idx, k, moved m0 l0.energy k (ω 0), false⟩} =
          {ω | moved m0 l0.energy k (ω 0) ∈ {e : ℝ | l0.energy + par.cut ≤ e ∧ Q ⟨m.n, if even then 1 else -1, idx, k, e, false⟩}} := by
        ext ω
        simp only [Set.mem_ofPred_eq, not_lt]
      have hkeep' : MeasurableSet {ω : ℕ → ℝ | moved m0 l0.energy k (ω 0) ∈ {e : ℝ | l0.energy + par.cut ≤ e ∧
          Q ⟨m.n, if even then 1 else -1, idx, k, e, false⟩}} := ((measurable_moved m0 l0.energy k).comp (measurable_pi_apply (X := fun _ : ℕ => ℝ) 0)) hkeep
      rw [e2, measure_union ?_ hkeep', stream_moved hkeep,
        indep (Forced m n0 Q) (measurable_forced m n0 Q) 1 _ hlt ?_, stream_forced]
      · have : stream {ω | moved m0 l0.energy k (ω 0) < l0.energy + par.cut} =
            ENNReal.ofReal (inBin (binBottom m0 l0.energy k) (binTop m0 k) {e | e < l0.energy + par.cut}) :=
          stream_moved (S := {e | e < l0.energy + par.cut}) measurableSet_Iio
        rw [this, ← ENNReal.ofReal_mul (inBin_nonneg _ _ _), ← ENNReal.ofReal_add, add_comm]
        · rfl
        · exact mul_nonneg (inBin_nonneg _ _ _)
            (Finset.sum_nonneg fun i _ => mul_nonneg (forcedTo_nonneg _ _ _ _) (atLevel_nonneg _ _ _ _))
        · exact inBin_nonneg _ _ _
      · intro ω ω' hω
        simp only [Set.mem_ofPred_eq, hω 0 (by omega)]
      · refine Set.disjoint_left.mpr ?_
        rintro ω ⟨h1, -⟩ h2
        exact absurd h1 (not_lt.mpr h2.1)

/-- Law of the end of a pass, and the entry it adds to the history. -/
theorem pass_law (h : Pass par st m n0 n1 m0 m1) (Q : MCPoint ℝ → Prop)
    (hQ : ∀ c p j k, MeasurableSet {e : ℝ | Q ⟨c, p, j, k, e, false⟩}) {l0 l1 : Level ℝ} (hl0 : n0.levels.getLast? = some l0)
    (hl1 : n1.levels.getLast? = some l1) :
    stream {ω | ∃ k st' x, contStep par st m (pre ω k) = .ok ((st', x), []) ∧ st'.hs = st.hs ++ [emission m n0 x] ∧ Q x} =
      ENNReal.ofReal (meanOver par m n0 n1 m0 m1 (chance par.cut m n0 n1 m0 m1 l0.energy l1.energy Q)) := by
  obtain ⟨pops, jm, hp, hnil, hrun⟩ := pass_run h
  have h' : compoundDecay par.maxJ par.w n0 n1 m0 m1 (par.phys m.n m.e) m.p m.j (st.jmax m.n) (st.jmax n0.next) [] =
      .ok (pops, []) := by rw [hp]; rfl
  have hsum := candidates_sum h'
  obtain ⟨hg, hn⟩ := pops_nonneg h.width h.phys h'
  have hnn := candidates_nonneg (n0 := n0) (n1 := n1) (m0 := m0) (m1 := m1) hg hn
  have hev : stream {ω | ∃ k st' x, contStep par st m (pre ω k) = .ok ((st', x), []) ∧ st'.hs = st.hs ++ [emission m n0 x] ∧ Q x} =
      stream {ω | ∃ a, firstReach (ω 0) 0 (candidates n0 n1 m0 m1 pops) = some a ∧ shift 1 ω ∈ Ends par m n0 n1 m0 m1 Q a} := by
    apply stream_congr
    intro ω hω
    obtain ⟨a, h1, -, h3⟩ := hrun ω hω
    simp only [Set.mem_ofPred_eq]
    constructor
    · rintro ⟨k, st', x, g1, -, g2⟩
      refine ⟨a, h1, ?_⟩
      cases k with
      | zero => exact absurd g1 (by rw [pre_zero, hnil]; simp)
      | succ k =>
        rw [pre_succ, h3] at g1
        obtain ⟨y, s, g3, g4⟩ := Rnd.bind_ok.mp g1
        obtain ⟨g5, rfl⟩ := Rnd.pure_ok.mp g4
        have : x = y := by first | exact (Prod.mk.inj g5).2 | exact (Prod.mk.inj g5).2.symm
        subst this
        exact ⟨k, x, g3, g2⟩
    · rintro ⟨a', g1, k, x, g2, g3⟩
      rw [h1] at g1
      cases g1
      refine ⟨k + 1, ⟨st.hs ++ [emission m n0 x], st.ts, jm⟩, x, ?_, rfl, g3⟩
      rw [pre_succ, h3, Rnd.bind_of_ok g2]
      rfl
  rw [hev, select_gen _ (measurable_ends h Q hQ) _ hnn (le_of_eq hsum), show meanOver par m n0 n1 m0 m1 _ = _ from (candidates_weight h hp _).symm, ← sum_ofReal]
  · congr 1
    apply List.map_congr_left
    intro y hy
    rw [stream_ends h Q hQ hl0 hl1, ENNReal.ofReal_mul (hnn y hy)]
  · intro y hy
    exact mul_nonneg (hnn y hy) (chance_nonneg _ _ _ _ _)

end CGMF.HF

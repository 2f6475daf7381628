import Verif.Proofs.PassLaw

/-!
# C110: law of one pass of the continuum loop

`specmc.cpp:336-410` and the functions it calls.  A pass selects a state, moves a continuum state to an energy uniform in its
bin and replaces states too close to the discrete levels by a forced transition.  The theorems give the joint law of the
emitted particle, its energy and the state reached.
-/

namespace CGMF.Props

open MeasureTheory CGMF.Law CGMF.MC CGMF.Grid CGMF.HF

variable {par : Par ℝ} {st : St ℝ} {m : MCPoint ℝ} {n0 n1 : Nuc ℝ} {m0 m1 : Mesh ℝ}

theorem ite_iff {P Q : Prop} {dP : Decidable P} {dQ : Decidable Q} (h : P ↔ Q) : (@ite ℝ P dP 1 0) = @ite ℝ Q dQ 1 0 := by
  by_cases hP : P
  · rw [if_pos hP, if_pos (h.mp hP)]
  · rw [if_neg hP, if_neg fun hQ => hP (h.mpr hQ)]

/-- A pass adds one entry to the history. -/
theorem contStep_hist (hn0 : par.chain[m.n]? = some n0) {st' : St ℝ} {x : MCPoint ℝ} {s s' : List ℝ}
    (h : contStep par st m s = .ok ((st', x), s')) : st'.hs = st.hs ++ [emission m n0 x] := by
  obtain ⟨n0', m0, d, pops, x1, x2, jm, s1, s2, s3, s4, s5, h1, -, -, -, -, -, -, -, -, -, h2⟩ := contStep_ok h
  obtain ⟨-, -, n0'', h3, rfl⟩ := store_ok h2
  rw [hn0] at h3
  cases h3
  unfold emission
  split <;> rfl

/-- **C110**, the law of a pass.  The probability that a pass ends in a point that satisfies `Q` is the mean over the states,
weighted with their transmission, of the chance of `Q` after each: levels are kept, continuum states move to an energy uniform
in their bin, and those of the decaying nucleus that come to lie less than the cut above the highest level are replaced by a
forced transition.  `Q` may depend on the nucleus, the spin, the parity, the bin, the energy and whether the point is a level.
The pass adds the photon or neutron to the history that carries away the energy. -/
theorem C110_pass (h : Pass par st m n0 n1 m0 m1) (Q : MCPoint ℝ → Prop)
    (hQ : ∀ c p j k, MeasurableSet {e : ℝ | Q ⟨c, p, j, k, e, false⟩}) {l0 l1 : Level ℝ} (hl0 : n0.levels.getLast? = some l0)
    (hl1 : n1.levels.getLast? = some l1) :
    stream {ω | ∃ k st' x, contStep par st m (pre ω k) = .ok ((st', x), []) ∧
        st'.hs = st.hs ++ [if m.n = x.n then ⟨.gamma, m.e - x.e, m⟩ else ⟨.neutron, m.e - x.e - n0.sn, m⟩] ∧ Q x} =
      ENNReal.ofReal (meanOver par m n0 n1 m0 m1 (chance par.cut m n0 n1 m0 m1 l0.energy l1.energy Q)) :=
  pass_law h Q hQ hl0 hl1

/-- **C110**, neutron spectrum of a pass: the probability that it emits a neutron with an energy in `S` is the sum over the
states of the daughter nucleus of their transmission times the chance that the energy left over lies in `S`, divided by the
total width. -/
theorem C110_neutron (h : Pass par st m n0 n1 m0 m1) {S : Set ℝ} (hS : MeasurableSet S) {l1 : Level ℝ}
    (hl1 : n1.levels.getLast? = some l1) :
    stream {ω | ∃ k st' x y, contStep par st m (pre ω k) = .ok ((st', x), []) ∧ st'.hs = st.hs ++ [y] ∧ y.id = Pid.neutron ∧ y.ep ∈ S} =
      ENNReal.ofReal (sumStates par.maxJ 0 m1.ncont n1.levels.length (fun c =>
          strength par.maxJ par.w n0 n1 m0 m1 (par.phys m.n m.e) m.p m.j (true, c) *
            energyIn n1.levels m1 l1.energy {e | m.e - e - n0.sn ∈ S} c) /
        (photonWidth par.maxJ par.w n0 n1 m0 m1 (par.phys m.n m.e) m.p m.j +
          neutronWidth par.maxJ par.w n0 n1 m0 m1 (par.phys m.n m.e) m.p m.j)) := by
  have hm : MeasurableSet {e : ℝ | m.e - e - n0.sn ∈ S} := (show Measurable fun e : ℝ => m.e - e - n0.sn by fun_prop) hS
  have hev : {ω : ℕ → ℝ | ∃ k st' x y, contStep par st m (pre ω k) = .ok ((st', x), []) ∧ st'.hs = st.hs ++ [y] ∧
      y.id = Pid.neutron ∧ y.ep ∈ S} =
      {ω | ∃ k st' x, contStep par st m (pre ω k) = .ok ((st', x), []) ∧ st'.hs = st.hs ++ [emission m n0 x] ∧
        (m.n ≠ x.n ∧ m.e - x.e - n0.sn ∈ S)} := by
    ext ω
    simp only [Set.mem_ofPred_eq]
    constructor
    · rintro ⟨k, st', x, y, h1, h2, h3, h4⟩
      have h5 := contStep_hist h.parent h1
      refine ⟨k, st', x, h1, h5, ?_⟩
      rw [h2, List.append_cancel_left_eq, List.cons.injEq] at h5
      rw [h5.1] at h3 h4
      unfold emission at h3 h4
      by_cases hc : m.n = x.n
      · rw [if_pos hc] at h3; cases h3
      · rw [if_neg hc] at h4; exact ⟨hc, h4⟩
    · rintro ⟨k, st', x, h1, h2, h3, h4⟩
      refine ⟨k, st', x, _, h1, h2, ?_⟩
      unfold emission
      rw [if_neg h3]
      exact ⟨rfl, h4⟩
  rw [hev, pass_law h (fun x => m.n ≠ x.n ∧ m.e - x.e - n0.sn ∈ S) ?_ (List.getLast?_eq_getLast_of_ne_nil h.levels0) hl1]
  · unfold meanOver
    congr 2
    have e0 : ∀ c, chance par.cut m n0 n1 m0 m1 (n0.levels.getLast h.levels0).energy l1.energy
        (fun x => m.n ≠ x.n ∧ m.e - x.e - n0.sn ∈ S) (false, c) = 0 := by
      have hA : ∀ i, atLevel n0.levels m.n (fun x => m.n ≠ x.n ∧ m.e - x.e - n0.sn ∈ S) i = 0 := by
        intro i
        unfold atLevel
        rw [if_neg]
        rintro ⟨l, -, h2, -⟩
        exact h2 rfl
      intro c
      cases c with
      | disc i => exact hA i
      | cont k idx even =>
        unfold chance
        simp only [hA, mul_zero, Finset.sum_const_zero, add_zero, ne_eq, not_true_eq_false, false_and, and_false]
        simp [inBin]
    have e1 : ∀ c, chance par.cut m n0 n1 m0 m1 (n0.levels.getLast h.levels0).energy l1.energy
        (fun x => m.n ≠ x.n ∧ m.e - x.e - n0.sn ∈ S) (true, c) = energyIn n1.levels m1 l1.energy {e | m.e - e - n0.sn ∈ S} c := by
      intro c
      cases c with
      | disc i =>
        show atLevel n1.levels n0.next (fun x => m.n ≠ x.n ∧ m.e - x.e - n0.sn ∈ S) i = _
        unfold atLevel energyIn
        refine ite_iff ?_
        simp only [ne_eq, h.other, not_false_eq_true, true_and, Set.mem_ofPred_eq]
      | cont k idx even =>
        show inBin _ _ _ = inBin _ _ _
        simp only [ne_eq, h.other, not_false_eq_true, true_and]
    simp only [e0, e1, mul_zero]
    rw [show sumStates par.maxJ 1 m0.ncont n0.levels.length (fun _ : Cell => (0 : ℝ)) = 0 by simp [sumStates], zero_add]
  · intro c p j k
    by_cases hc : m.n = c
    · simp [hc]
    · simpa [hc] using hm

/-- **C110**, photon spectrum of a pass. -/
theorem C110_photon (h : Pass par st m n0 n1 m0 m1) {S : Set ℝ} (hS : MeasurableSet S) {l0 : Level ℝ}
    (hl0 : n0.levels.getLast? = some l0) :
    stream {ω | ∃ k st' x y, contStep par st m (pre ω k) = .ok ((st', x), []) ∧ st'.hs = st.hs ++ [y] ∧ y.id = Pid.gamma ∧ y.ep ∈ S} =
      ENNReal.ofReal (sumStates par.maxJ 1 m0.ncont n0.levels.length (fun c =>
          strength par.maxJ par.w n0 n1 m0 m1 (par.phys m.n m.e) m.p m.j (false, c) *
            photonIn par.cut m n0.levels m0 l0.energy S c) /
        (photonWidth par.maxJ par.w n0 n1 m0 m1 (par.phys m.n m.e) m.p m.j +
          neutronWidth par.maxJ par.w n0 n1 m0 m1 (par.phys m.n m.e) m.p m.j)) := by
  have hm : MeasurableSet {e : ℝ | m.e - e ∈ S} := (show Measurable fun e : ℝ => m.e - e by fun_prop) hS
  have hev : {ω : ℕ → ℝ | ∃ k st' x y, contStep par st m (pre ω k) = .ok ((st', x), []) ∧ st'.hs = st.hs ++ [y] ∧
      y.id = Pid.gamma ∧ y.ep ∈ S} =
      {ω | ∃ k st' x, contStep par st m (pre ω k) = .ok ((st', x), []) ∧ st'.hs = st.hs ++ [emission m n0 x] ∧
        (m.n = x.n ∧ m.e - x.e ∈ S)} := by
    ext ω
    simp only [Set.mem_ofPred_eq]
    constructor
    · rintro ⟨k, st', x, y, h1, h2, h3, h4⟩
      have h5 := contStep_hist h.parent h1
      refine ⟨k, st', x, h1, h5, ?_⟩
      rw [h2, List.append_cancel_left_eq, List.cons.injEq] at h5
      rw [h5.1] at h3 h4
      unfold emission at h3 h4
      by_cases hc : m.n = x.n
      · rw [if_pos hc] at h4; exact ⟨hc, h4⟩
      · rw [if_neg hc] at h3; cases h3
    · rintro ⟨k, st', x, h1, h2, h3, h4⟩
      refine ⟨k, st', x, _, h1, h2, ?_⟩
      unfold emission
      rw [if_pos h3]
      exact ⟨rfl, h4⟩
  rw [hev, pass_law h (fun x => m.n = x.n ∧ m.e - x.e ∈ S) ?_ hl0 (List.getLast?_eq_getLast_of_ne_nil h.levels1)]
  · unfold meanOver
    congr 2
    have hA : ∀ i, atLevel n0.levels m.n (fun x => m.n = x.n ∧ m.e - x.e ∈ S) i =
        energyIn n0.levels m0 l0.energy {e | m.e - e ∈ S} (.disc i) := by
      intro i
      unfold atLevel energyIn
      refine ite_iff ?_
      simp only [true_and, Set.mem_ofPred_eq]
    have e0 : ∀ c, chance par.cut m n0 n1 m0 m1 l0.energy (n1.levels.getLast h.levels1).energy
        (fun x => m.n = x.n ∧ m.e - x.e ∈ S) (false, c) = photonIn par.cut m n0.levels m0 l0.energy S c := by
      intro c
      cases c with
      | disc i => exact hA i
      | cont k idx even =>
        unfold chance photonIn
        simp only [hA, true_and]
    have e1 : ∀ c, chance par.cut m n0 n1 m0 m1 l0.energy (n1.levels.getLast h.levels1).energy
        (fun x => m.n = x.n ∧ m.e - x.e ∈ S) (true, c) = 0 := by
      intro c
      cases c with
      | disc i =>
        show atLevel n1.levels n0.next (fun x => m.n = x.n ∧ m.e - x.e ∈ S) i = 0
        unfold atLevel
        rw [if_neg]
        rintro ⟨l, -, h2, -⟩
        exact h.other h2
      | cont k idx even =>
        show inBin _ _ _ = _
        simp [inBin, h.other]
    simp only [e0, e1, mul_zero]
    rw [show sumStates par.maxJ 0 m1.ncont n1.levels.length (fun _ : Cell => (0 : ℝ)) = 0 by simp [sumStates], add_zero]
  · intro c p j k
    by_cases hc : m.n = c
    · simpa [hc] using hm
    · simp [hc]

/-- **C110**, population of a level: the probability that a pass ends on level `i` of the decaying nucleus. -/
theorem C110_level (h : Pass par st m n0 n1 m0 m1) {l0 : Level ℝ} (hl0 : n0.levels.getLast? = some l0) {i : Nat} {l : Level ℝ}
    (hl : n0.levels[i]? = some l) :
    stream {ω | ∃ k st', contStep par st m (pre ω k) = .ok ((st', ⟨m.n, l.parity, 0, i, l.energy, true⟩), [])} =
      ENNReal.ofReal (sumStates par.maxJ 1 m0.ncont n0.levels.length (fun c =>
          strength par.maxJ par.w n0 n1 m0 m1 (par.phys m.n m.e) m.p m.j (false, c) *
            levelIn par.cut m n0.levels m0 l0.energy i c) /
        (photonWidth par.maxJ par.w n0 n1 m0 m1 (par.phys m.n m.e) m.p m.j +
          neutronWidth par.maxJ par.w n0 n1 m0 m1 (par.phys m.n m.e) m.p m.j)) := by
  have hev : {ω : ℕ → ℝ | ∃ k st', contStep par st m (pre ω k) = .ok ((st', ⟨m.n, l.parity, 0, i, l.energy, true⟩), [])} =
      {ω | ∃ k st' x, contStep par st m (pre ω k) = .ok ((st', x), []) ∧ st'.hs = st.hs ++ [emission m n0 x] ∧
        x = levelPoint m.n i l} := by
    ext ω
    simp only [Set.mem_ofPred_eq]
    constructor
    · rintro ⟨k, st', h1⟩
      exact ⟨k, st', _, h1, contStep_hist h.parent h1, rfl⟩
    · rintro ⟨k, st', x, h1, -, rfl⟩
      exact ⟨k, st', h1⟩
  have hQ : ∀ c p j k, MeasurableSet {e : ℝ | (⟨c, p, j, k, e, false⟩ : MCPoint ℝ) = levelPoint m.n i l} := by
    intro c p j k
    have : {e : ℝ | (⟨c, p, j, k, e, false⟩ : MCPoint ℝ) = levelPoint m.n i l} = ∅ := by
      ext e
      simp [levelPoint]
    rw [this]
    exact MeasurableSet.empty
  rw [hev, pass_law h (fun x => x = levelPoint m.n i l) hQ hl0 (List.getLast?_eq_getLast_of_ne_nil h.levels1)]
  have hlt := (List.getElem?_eq_some_iff.mp hl).1
  have hA : ∀ i', atLevel n0.levels m.n (fun x => x = levelPoint m.n i l) i' = if i' = i then 1 else 0 := by
    intro i'
    unfold atLevel
    refine ite_iff ?_
    constructor
    · rintro ⟨l', -, h2⟩
      exact congrArg MCPoint.k h2
    · rintro rfl
      exact ⟨l, hl, rfl⟩
  unfold meanOver
  congr 2
  have e0 : ∀ c, chance par.cut m n0 n1 m0 m1 l0.energy (n1.levels.getLast h.levels1).energy (fun x => x = levelPoint m.n i l)
      (false, c) = levelIn par.cut m n0.levels m0 l0.energy i c := by
    intro c
    cases c with
    | disc i' => exact hA i'
    | cont k idx even =>
      unfold chance levelIn
      simp only [hA]
      rw [Finset.sum_eq_single i]
      · simp [inBin, levelPoint]
      · intro b _ hb
        rw [if_neg hb, mul_zero]
      · intro hb
        exact absurd (Finset.mem_range.mpr hlt) hb
  have e1 : ∀ c, chance par.cut m n0 n1 m0 m1 l0.energy (n1.levels.getLast h.levels1).energy (fun x => x = levelPoint m.n i l)
      (true, c) = 0 := by
    intro c
    cases c with
    | disc i' =>
      show atLevel n1.levels n0.next (fun x => x = levelPoint m.n i l) i' = 0
      unfold atLevel
      rw [if_neg]
      rintro ⟨l', -, h2⟩
      exact h.other (congrArg MCPoint.n h2).symm
    | cont k idx even =>
      show inBin _ _ _ = _
      simp [inBin, levelPoint]
  simp only [e0, e1, mul_zero]
  rw [show sumStates par.maxJ 0 m1.ncont n1.levels.length (fun _ : Cell => (0 : ℝ)) = 0 by simp [sumStates], add_zero]

/-- **C110**, forced transitions: a transition forced from the state with spin index `j` and parity `p` ends on each preferred
level with the same probability; without preferred levels it ends on the first level of the closest spin. -/
theorem C110_forced (levels : List (Level ℝ)) (p j : Int) (i : Nat) :
    prob (forced levels p j) i = ENNReal.ofReal (forcedTo levels p (2 * j) i) :=
  prob_forced levels p j i

/-- Probability that a number uniform in a bin lies in an interval of it. -/
theorem C110_bin {lo hi u v : ℝ} (h1 : lo ≤ u) (h2 : u ≤ v) (h3 : v ≤ hi) (h : lo < hi) :
    inBin lo hi (Set.Icc u v) = (v - u) / (hi - lo) := by
  have hd : 0 < hi - lo := by linarith
  have : {r | lo + (hi - lo) * r ∈ Set.Icc u v} = Set.Icc ((u - lo) / (hi - lo)) ((v - lo) / (hi - lo)) := by
    ext r
    simp only [Set.mem_ofPred_eq, Set.mem_Icc]
    rw [div_le_iff₀ hd, le_div_iff₀ hd]
    constructor
    · rintro ⟨a, b⟩; constructor <;> nlinarith
    · rintro ⟨a, b⟩; constructor <;> nlinarith
  unfold inBin
  rw [this]
  unfold unif
  rw [Measure.restrict_apply measurableSet_Icc]
  have e : volume (Set.Icc ((u - lo) / (hi - lo)) ((v - lo) / (hi - lo)) ∩ Set.Ico 0 1) =
      volume (Set.Icc ((u - lo) / (hi - lo)) ((v - lo) / (hi - lo))) := by
    apply measure_congr
    have hne : ∀ᵐ r : ℝ ∂volume, r ≠ 1 := by
      rw [ae_iff]
      simp
    refine Filter.eventuallyEq_set.mpr ?_
    filter_upwards [hne] with r hr
    constructor
    · exact fun h => h.1
    · intro h'
      refine ⟨h', le_trans (div_nonneg (by linarith) hd.le) h'.1, lt_of_le_of_ne (h'.2.trans ?_) hr⟩
      rw [div_le_one hd]
      linarith
  rw [e, Real.volume_Icc, ENNReal.toReal_ofReal]
  · rw [← sub_div]
    congr 1
    ring
  · rw [← sub_div]
    exact div_nonneg (by linarith) hd.le

/-- The chances of the levels after a forced transition add up to one if some level lies within 100 units of spin. -/
theorem sum_forcedTo {levels : List (Level ℝ)} {p J : Int} (hl : ∃ l ∈ levels, |l.spin2 - J| < 200) :
    ∑ i ∈ Finset.range levels.length, forcedTo levels p J i = 1 := by
  classical
  unfold forcedTo
  by_cases hp : ∃ l ∈ levels, Preferred l J p
  · simp only [if_pos hp]
    rw [Finset.sum_ite, Finset.sum_const_zero, add_zero, Finset.sum_const, nsmul_eq_mul]
    have hc : ((Finset.range levels.length).filter fun i => ∃ l, levels[i]? = some l ∧ Preferred l J p).card =
        levels.countP fun l => decide (Preferred l J p) := by
      clear hp hl
      induction levels using List.reverseRecOn with
      | nil => simp
      | append_singleton ls a ih =>
        rw [List.length_append, List.length_singleton, Finset.range_add_one, List.countP_append, Finset.filter_insert]
        have e1 : ((Finset.range ls.length).filter fun i => ∃ l, (ls ++ [a])[i]? = some l ∧ Preferred l J p) =
            (Finset.range ls.length).filter fun i => ∃ l, ls[i]? = some l ∧ Preferred l J p := by
          apply Finset.filter_congr
          intro i hi
          rw [List.getElem?_append_left (Finset.mem_range.mp hi)]
        rw [e1]
        by_cases ha : Preferred a J p
        · rw [if_pos ⟨a, by simp, ha⟩, Finset.card_insert_of_notMem (by simp), ih]
          simp [ha]
        · rw [if_neg (by rintro ⟨l, h1, h2⟩; simp at h1; exact ha (h1 ▸ h2)), ih]
          simp [ha]
    rw [hc]
    have : 0 < levels.countP fun l => decide (Preferred l J p) := by
      obtain ⟨l, h1, h2⟩ := hp
      exact List.countP_pos_iff.mpr ⟨l, h1, by simpa using h2⟩
    field_simp
  · simp only [if_neg hp]
    obtain ⟨i, hi⟩ : ∃ i, FirstClosest levels J i := by
      clear hp
      obtain ⟨l, h1, h2⟩ := hl
      obtain ⟨k, hk⟩ := List.getElem?_of_mem h1
      let P : Nat → Prop := fun d => ∃ (i : Nat) (l : Level ℝ), levels[i]? = some l ∧ |l.spin2 - J|.toNat = d
      have hP : ∃ d, P d := ⟨_, k, l, hk, rfl⟩
      obtain ⟨i0, l0, a1, a2⟩ := Nat.find_spec hP
      let R : Nat → Prop := fun i => ∃ l : Level ℝ, levels[i]? = some l ∧ |l.spin2 - J|.toNat = Nat.find hP
      have hR : ∃ i, R i := ⟨i0, l0, a1, a2⟩
      obtain ⟨l3, b1, b2⟩ := Nat.find_spec hR
      have hmin : ∀ (i : Nat) (l' : Level ℝ), levels[i]? = some l' → |l3.spin2 - J| ≤ |l'.spin2 - J| := by
        intro i l' hl'
        have := Nat.find_min' hP ⟨i, l', hl', rfl⟩
        have := abs_nonneg (l3.spin2 - J)
        have := abs_nonneg (l'.spin2 - J)
        omega
      refine ⟨Nat.find hR, l3, b1, lt_of_le_of_lt (hmin k l hk) h2, ?_, ?_⟩
      · intro l' hl'
        obtain ⟨k', hk'⟩ := List.getElem?_of_mem hl'
        exact hmin k' l' hk'
      · intro k' l' hk' hl'
        have := Nat.find_min hR hk'
        have h5 := hmin k' l' hl'
        refine lt_of_le_of_ne h5 fun he => this ⟨l', hl', by rw [← he]; exact b2⟩
    have hlt : i < levels.length := by
      obtain ⟨l, h1, -⟩ := hi
      exact (List.getElem?_eq_some_iff.mp h1).1
    rw [Finset.sum_eq_single i]
    · rw [if_pos hi]
    · intro k _ hk
      rw [if_neg fun h => hk (firstClosest_unique h hi)]
    · intro h
      exact absurd (Finset.mem_range.mpr hlt) h

/-- **C110**: a pass ends, with probability one, if some level of the decaying nucleus lies within 100 units of its spin. -/
theorem C110_ends (h : Pass par st m n0 n1 m0 m1) (hl : ∃ l ∈ n0.levels, |l.spin2 - 2 * m.j| < 200) :
    stream {ω | ∃ k st' x, contStep par st m (pre ω k) = .ok ((st', x), [])} = 1 := by
  have hev : {ω : ℕ → ℝ | ∃ k st' x, contStep par st m (pre ω k) = .ok ((st', x), [])} =
      {ω | ∃ k st' x, contStep par st m (pre ω k) = .ok ((st', x), []) ∧ st'.hs = st.hs ++ [emission m n0 x] ∧ True} := by
    ext ω
    simp only [Set.mem_ofPred_eq]
    constructor
    · rintro ⟨k, st', x, h1⟩
      exact ⟨k, st', x, h1, contStep_hist h.parent h1, trivial⟩
    · rintro ⟨k, st', x, h1, -⟩
      exact ⟨k, st', x, h1⟩
  rw [hev, pass_law h (fun _ => True) (fun _ _ _ _ => by simp) (List.getLast?_eq_getLast_of_ne_nil h.levels0)
    (List.getLast?_eq_getLast_of_ne_nil h.levels1)]
  have hbin : ∀ lo hi : ℝ, inBin lo hi {_e | True} = 1 := by
    intro lo hi
    simp [inBin]
  have e0 : ∀ k idx even, chance par.cut m n0 n1 m0 m1 (n0.levels.getLast h.levels0).energy (n1.levels.getLast h.levels1).energy
      (fun _ => True) (false, .cont k idx even) = 1 := by
    intro k idx even
    unfold chance
    have hA : ∀ i ∈ Finset.range n0.levels.length, forcedTo n0.levels m.p (2 * m.j) i * atLevel n0.levels m.n (fun _ => True) i =
        forcedTo n0.levels m.p (2 * m.j) i := by
      intro i hi
      unfold atLevel
      rw [if_pos, mul_one]
      exact ⟨_, List.getElem?_eq_getElem (Finset.mem_range.mp hi), trivial⟩
    simp only [Finset.sum_congr rfl hA, sum_forcedTo hl, mul_one, and_true]
    set lo := binBottom m0 (n0.levels.getLast h.levels0).energy k
    set hi := binTop m0 k
    set c := (n0.levels.getLast h.levels0).energy + par.cut
    have hmeas : MeasurableSet {r : ℝ | lo + (hi - lo) * r ∈ {e | e < c}} :=
      measurableSet_lt (f := fun r : ℝ => lo + (hi - lo) * r) (by fun_prop) measurable_const
    have := measure_compl hmeas (measure_ne_top unif _)
    have hc : {r : ℝ | lo + (hi - lo) * r ∈ {e | e < c}}ᶜ = {r : ℝ | lo + (hi - lo) * r ∈ {e | c ≤ e}} := by
      ext r
      simp
    rw [hc, measure_univ] at this
    unfold inBin
    rw [this, ENNReal.toReal_sub_of_le prob_le_one (by simp)]
    simp
  have e1 : ∀ i, i < n0.levels.length → chance par.cut m n0 n1 m0 m1 (n0.levels.getLast h.levels0).energy
      (n1.levels.getLast h.levels1).energy (fun _ => True) (false, .disc i) = 1 := by
    intro i hi
    show atLevel n0.levels m.n (fun _ => True) i = 1
    unfold atLevel
    exact if_pos ⟨_, List.getElem?_eq_getElem hi, trivial⟩
  have e2 : ∀ i, i < n1.levels.length → chance par.cut m n0 n1 m0 m1 (n0.levels.getLast h.levels0).energy
      (n1.levels.getLast h.levels1).energy (fun _ => True) (true, .disc i) = 1 := by
    intro i hi
    show atLevel n1.levels n0.next (fun _ => True) i = 1
    unfold atLevel
    exact if_pos ⟨_, List.getElem?_eq_getElem hi, trivial⟩
  have e3 : ∀ k idx even, chance par.cut m n0 n1 m0 m1 (n0.levels.getLast h.levels0).energy (n1.levels.getLast h.levels1).energy
      (fun _ => True) (true, .cont k idx even) = 1 := by
    intro k idx even
    exact hbin _ _
  have key : ∀ (a b nlev : Nat) (F G : Cell → ℝ), (∀ k idx even, G (.cont k idx even) = 1) → (∀ i < nlev, G (.disc i) = 1) →
      sumStates par.maxJ a b nlev (fun c => F c * G c) = sumStates par.maxJ a b nlev F := by
    intro a b nlev F G h1 h2
    unfold sumStates
    simp only [h1, mul_one]
    congr 2
    apply List.map_congr_left
    intro i hi
    rw [h2 i (List.mem_range.mp hi), mul_one]
  unfold meanOver
  rw [key 1 m0.ncont n0.levels.length (fun c => strength par.maxJ par.w n0 n1 m0 m1 (par.phys m.n m.e) m.p m.j (false, c))
      (fun c => chance par.cut m n0 n1 m0 m1 (n0.levels.getLast h.levels0).energy
      (n1.levels.getLast h.levels1).energy (fun _ => True) (false, c)) e0 e1,
    key 0 m1.ncont n1.levels.length (fun c => strength par.maxJ par.w n0 n1 m0 m1 (par.phys m.n m.e) m.p m.j (true, c))
      (fun c => chance par.cut m n0 n1 m0 m1 (n0.levels.getLast h.levels0).energy
      (n1.levels.getLast h.levels1).energy (fun _ => True) (true, c)) e3 e2]
  have := div_self h.width_ne
  unfold photonWidth neutronWidth at this ⊢
  rw [this, ENNReal.ofReal_one]

/-! ## Examples -/

namespace SpectrumDemo

/-- A state of spin one at 2 MeV; the daughter nucleus has one bin between 1/2 and 1 MeV and its ground state. -/
theorem pass : Pass LawDemo.par ⟨[], [], fun _ => 0⟩ ⟨0, 1, 1, 0, 2, false⟩ LawDemo.n0 LawDemo.n1 LawDemo.m0 LawDemo.m1 where
  spins := by decide
  width := zero_le_one
  parent := rfl
  grid0 := LawDemo.setup0
  daughter := fun _ => ⟨rfl, LawDemo.setup1⟩
  other := by decide
  levels0 := by simp [LawDemo.n0]
  levels1 := by simp [LawDemo.n1]
  spin := by decide
  phys := LawDemo.ph_nonneg
  fits := LawDemo.fits
  room := by decide
  width_ne := by
    show photonWidth 2 1 _ _ _ _ LawDemo.ph 1 1 + neutronWidth 2 1 _ _ _ _ LawDemo.ph 1 1 ≠ 0
    rw [LawDemo.photon, LawDemo.neutron]; norm_num

end SpectrumDemo

/-- A neutron with at most 1/4 MeV: half of the 3/10 for the daughter's bin. -/
example : stream {ω | ∃ k st' x y, contStep LawDemo.par ⟨[], [], fun _ => 0⟩ ⟨0, 1, 1, 0, 2, false⟩ (pre ω k) = .ok ((st', x), []) ∧
    st'.hs = [] ++ [y] ∧ y.id = Pid.neutron ∧ y.ep ∈ Set.Icc 0 (1 / 4)} = ENNReal.ofReal (3 / 20) := by
  have := C110_neutron SpectrumDemo.pass (S := Set.Icc 0 (1 / 4)) measurableSet_Icc (l1 := ⟨0, 1, 1, 0, []⟩) rfl
  refine this.trans ?_
  congr 1
  show sumStates 2 0 1 1 (fun c => strength 2 1 LawDemo.n0 LawDemo.n1 LawDemo.m0 LawDemo.m1 LawDemo.ph 1 1 (true, c) *
    energyIn LawDemo.n1.levels LawDemo.m1 0 {e : ℝ | 2 - e - 1 ∈ Set.Icc (0 : ℝ) (1 / 4)} c) /
    (photonWidth 2 1 LawDemo.n0 LawDemo.n1 LawDemo.m0 LawDemo.m1 LawDemo.ph 1 1 + neutronWidth 2 1 LawDemo.n0 LawDemo.n1 LawDemo.m0 LawDemo.m1 LawDemo.ph 1 1) = _
  rw [LawDemo.photon, LawDemo.neutron]
  have hS : {e : ℝ | 2 - e - 1 ∈ Set.Icc (0 : ℝ) (1 / 4)} = Set.Icc (3 / 4) 1 := by
    ext e
    simp only [Set.mem_ofPred_eq, Set.mem_Icc]
    constructor <;> rintro ⟨a, b⟩ <;> constructor <;> linarith
  have hb : inBin (binBottom LawDemo.m1 0 0) (binTop LawDemo.m1 0) (Set.Icc (3 / 4) 1) = 1 / 2 := by
    have e1 : LawDemo.m1.exc 1 = 0 := by norm_num [LawDemo.m1, excOf, binEnergy]
    have e2 : binBottom LawDemo.m1 0 0 = 1 / 2 := by
      unfold binBottom
      norm_num [LawDemo.e1, e1]
    have e3 : binTop LawDemo.m1 0 = 1 := by
      unfold binTop
      rw [if_pos rfl, LawDemo.e1]
    rw [e2, e3, C110_bin (by norm_num) (by norm_num) (by norm_num) (by norm_num)]
    norm_num
  rw [hS]
  have h0 : i0 LawDemo.n0 = 0 := by decide
  have h1 : i0 LawDemo.n1 = 1 := by decide
  have hl : LawDemo.n1.levels = [⟨0, 1, 1, 0, []⟩] := rfl
  have hs : LawDemo.n0.status = true := rfl
  have hsn : LawDemo.n0.sn = 1 := rfl
  have hc : LawDemo.m1.ncont = 1 := rfl
  norm_num [sumStates, strength, neutronStrength, energyIn, hb, h0, h1, hl, hs, hsn, hc, LawDemo.e0, LawDemo.e1, LawDemo.ph,
    List.range'_succ, List.range_succ, NeutronBy, Triangle]

/-- The pass ends. -/
example : stream {ω | ∃ k st' x, contStep LawDemo.par ⟨[], [], fun _ => 0⟩ ⟨0, 1, 1, 0, 2, false⟩ (pre ω k) = .ok ((st', x), [])} = 1 :=
  C110_ends SpectrumDemo.pass ⟨⟨0, 0, 1, 0, []⟩, by simp [LawDemo.n0], by decide⟩

/-- The parent's first bin below the state lies between 1/2 and 3/2 MeV, all of it above the cut, so the only level is reached
by its own strength: the photon of 2 MeV has probability 1/10. -/
example : stream {ω | ∃ k st', contStep LawDemo.par ⟨[], [], fun _ => 0⟩ ⟨0, 1, 1, 0, 2, false⟩ (pre ω k) =
    .ok ((st', ⟨0, 1, 0, 0, 0, true⟩), [])} = ENNReal.ofReal (1 / 10) := by
  have := C110_level SpectrumDemo.pass (l0 := ⟨0, 0, 1, 0, []⟩) rfl (i := 0) (l := ⟨0, 0, 1, 0, []⟩) rfl
  refine this.trans ?_
  congr 1
  show sumStates 2 1 2 1 (fun c => strength 2 1 LawDemo.n0 LawDemo.n1 LawDemo.m0 LawDemo.m1 LawDemo.ph 1 1 (false, c) *
    levelIn (1 / 50) ⟨0, 1, 1, 0, 2, false⟩ LawDemo.n0.levels LawDemo.m0 0 0 c) /
    (photonWidth 2 1 LawDemo.n0 LawDemo.n1 LawDemo.m0 LawDemo.m1 LawDemo.ph 1 1 + neutronWidth 2 1 LawDemo.n0 LawDemo.n1 LawDemo.m0 LawDemo.m1 LawDemo.ph 1 1) = _
  rw [LawDemo.photon, LawDemo.neutron]
  have h0 : i0 LawDemo.n0 = 0 := by decide
  have hl : LawDemo.n0.levels = [⟨0, 0, 1, 0, []⟩] := rfl
  have hb : inBin (binBottom LawDemo.m0 0 1) (binTop LawDemo.m0 1) {e | e < 0 + 1 / 50} = 0 := by
    have e1 : LawDemo.m0.exc 1 = 1 := by norm_num [LawDemo.m0, excOf, binEnergy]
    have e2 : LawDemo.m0.exc 2 = 0 := by norm_num [LawDemo.m0, excOf, binEnergy]
    have e3 : binBottom LawDemo.m0 0 1 = 1 / 2 := by
      unfold binBottom
      norm_num [e1, e2]
    have e4 : binTop LawDemo.m0 1 = 3 / 2 := by
      unfold binTop
      norm_num [e1, LawDemo.e0]
    rw [e3, e4]
    unfold inBin unif
    have : {r : ℝ | 1 / 2 + (3 / 2 - 1 / 2) * r ∈ {e : ℝ | e < 0 + 1 / 50}} = Set.Iio (-(12 / 25)) := by
      ext r
      simp only [Set.mem_ofPred_eq, Set.mem_Iio]
      constructor <;> intro h <;> linarith
    rw [this, MeasureTheory.Measure.restrict_apply measurableSet_Iio]
    have : Set.Iio (-(12 / 25 : ℝ)) ∩ Set.Ico 0 1 = ∅ := by
      ext r
      simp only [Set.mem_inter_iff, Set.mem_Iio, Set.mem_Ico, Set.mem_empty_iff_false, iff_false]
      rintro ⟨a, b, -⟩
      linarith
    rw [this]
    simp
  have hL : ∀ (j : Int) (e : Bool), levelIn (1 / 50) ⟨0, 1, 1, 0, 2, false⟩ LawDemo.n0.levels LawDemo.m0 0 0 (.cont 1 j e) = 0 := by
    intro j e
    show inBin (binBottom LawDemo.m0 0 1) (binTop LawDemo.m0 1) {e | e < 0 + 1 / 50} * _ = 0
    rw [hb, zero_mul]
  have hD : levelIn (1 / 50) ⟨0, 1, 1, 0, 2, false⟩ LawDemo.n0.levels LawDemo.m0 0 0 (.disc 0) = 1 := rfl
  have hst : strength 2 1 LawDemo.n0 LawDemo.n1 LawDemo.m0 LawDemo.m1 LawDemo.ph 1 1 (false, .disc 0) = 1 := by
    norm_num [strength, photonStrength, h0, hl, LawDemo.ph, PhotonBy, Triangle]
  simp only [sumStates, List.range'_succ, List.range'_zero, List.range_succ, List.range_zero, List.map_cons, List.map_nil, hL, hD, hst,
    List.nil_append, List.map_append, List.sum_append, List.sum_cons, List.sum_nil]
  norm_num

/-- Two preferred levels of three: each has probability 1/2. -/
example : prob (forced [⟨0, 0, 1, 0, []⟩, ⟨1, 2, -1, 0, []⟩, ⟨2, 4, -1, 0, []⟩] 1 1) 2 = ENNReal.ofReal (1 / 2) := by
  have : forcedTo [⟨0, 0, 1, 0, []⟩, ⟨1, 2, -1, 0, []⟩, ⟨2, 4, -1, 0, []⟩] 1 (2 * 1) 2 = 1 / 2 := by
    unfold forcedTo
    rw [if_pos ⟨⟨1, 2, -1, 0, []⟩, by simp, by decide⟩, if_pos ⟨⟨2, 4, -1, 0, []⟩, rfl, by decide⟩]
    norm_num [Preferred]
  rw [C110_forced, this]

end CGMF.Props

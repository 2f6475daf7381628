import Verif.Proofs.PreLaw

/-!
# C115: law of the energies of pre-fission neutrons

Probabilities refer to independent uniform random numbers (`Spec/Law.lean`).
-/

namespace CGMF.Props

open MeasureTheory CGMF.Law CGMF.Pre CGMF.Spec

variable {y : Sys ℝ} {n N : Nat} {E : Nat → ℝ}

/-- **C115.** The joint law of the energies of all pre-fission neutrons of an event and of the excitation energy that is
left: the bin of the first neutron is drawn in proportion to its spectrum over the bins strictly above the barrier, the bin of
each later one in proportion to the spectrum computed from the bin reached so far over the bins at or above the barrier, every
energy is spread evenly over its bin, and the last nucleus keeps the energy of the last bin. -/
theorem C115_joint (h : Chained y n N E) {b : ℝ} (hb : y.w ≤ b) (hbar : y.barrier[n]? = some b) {nemit : Int} (hne : nemit ≠ 0)
    (hE : b ≤ E n) (hs : SpectraOK y n (E n) b) (E0 : ℝ) (X : Set ℝ) (A : Set ℝ) (As : List (Set ℝ))
    (hlen : As.length + 1 = n) (hm : ∀ B ∈ A :: As, MeasurableSet B) :
    probIn (energies y nemit n E0) (InAll (A :: As) X) = allChance y (E n) b X A As := by
  rw [probIn_mark, (all_mark hne (by omega) (read_top h hb hE) (read_barrier hbar) (by linarith) E0 A As X).prob]
  exact prob_allMark h hb hbar (by omega) hs X (hm A (by simp)) hlen fun B hB => hm B (by simp [hB])

theorem portion_sum {s : Nat → ℝ} {m : Nat} (h0 : ∀ j < m, 0 ≤ s j) (hs : 0 < ∑ j ∈ Finset.range m, s j) :
    ∑ j ∈ Finset.range m, portion s m j = 1 := by
  unfold portion
  rw [← ENNReal.ofReal_sum_of_nonneg (fun j hj => div_nonneg (h0 j (Finset.mem_range.mp hj)) hs.le), ← Finset.sum_div,
    div_self hs.ne', ENNReal.ofReal_one]

theorem share_full {w e : ℝ} (hw : 0 < w) {A : Set ℝ} (h : Set.Ioc (e - w / 2) (e + w / 2) ⊆ A) : share w e A = 1 := by
  unfold share
  rw [Set.inter_eq_self_of_subset_right h, Real.volume_Ioc, show e + w / 2 - (e - w / 2) = w by ring]
  exact ENNReal.div_self (by simpa using hw) ENNReal.ofReal_ne_top

/-- A sum of portions times something that is one wherever the portion is not zero. -/
theorem portion_one {s : Nat → ℝ} {m : Nat} (h0 : ∀ j < m, 0 ≤ s j) (hs : 0 < ∑ j ∈ Finset.range m, s j) {F : Nat → ENNReal}
    (hF : ∀ j < m, s j = 0 ∨ F j = 1) : ∑ j ∈ Finset.range m, portion s m j * F j = 1 := by
  rw [← portion_sum h0 hs]
  apply Finset.sum_congr rfl
  intro j hj
  rcases hF j (Finset.mem_range.mp hj) with h | h
  · simp [portion, h]
  · rw [h, mul_one]

/-- The chance is one when the sets hold every energy that can occur. -/
theorem laterChance_one (hw : 0 < y.w) {b : ℝ} {En : ℝ} (hs : SpectraOK y n En b) {X : Set ℝ} (hX : ∀ k : Nat, En - k * y.w ∈ X)
    {A : Set ℝ} (hA : ∀ j : Nat, j ≠ 0 → Set.Ioc (j * y.w - y.w / 2) (j * y.w + y.w / 2) ⊆ A) (ht : y.tiny ∈ A)
    (hz : Set.Ioc (-(y.w / 2)) (y.w / 2) ⊆ A ∨ ∀ i, 2 ≤ i → i ≤ n → ∀ k : Nat, y.w ≤ En - k * y.w - b → (y.sp i k).getD k 0 = 0) : ∀ (m i k : Nat), 2 ≤ i → i + m ≤ n + 1 →
    laterChance y En b X (List.replicate m A) i k = 1 := by
  intro m
  induction m with
  | zero =>
    intro i k _ _
    simp [laterChance, hX k]
  | succ m ih =>
    intro i k hi him
    rw [List.replicate_succ, laterChance, if_pos ht]
    split
    · rw [one_mul]
      exact ih _ _ (by omega) (by omega)
    · rename_i hc
      obtain ⟨s1, s2⟩ := hs.later i hi (by omega) k (not_lt.mp hc)
      simp only [mul_assoc]
      refine portion_one s1 s2 ?_
      intro j _
      rcases Nat.eq_zero_or_pos j with rfl | hj0
      · rcases hz with hz | hz
        · right
          rw [ih _ _ (by omega) (by omega), mul_one]
          exact share_full hw (by simpa using hz)
        · left
          simpa using hz i hi (by omega) k (not_lt.mp hc)
      · right
        rw [ih _ _ (by omega) (by omega), mul_one]
        exact share_full hw (hA j (by omega))

theorem inAll_all {m : Nat} {z : Option (List ℝ) × ℝ} {A X : Set ℝ} : z ∈ InAll (List.replicate m A) X ↔
    ∃ es, z.1 = some es ∧ es.length = m ∧ (∀ e ∈ es, e ∈ A) ∧ z.2 ∈ X := by
  have : ∀ (m : Nat) (es : List ℝ), List.Forall₂ (fun e A => e ∈ A) es (List.replicate m A) ↔ es.length = m ∧ ∀ e ∈ es, e ∈ A := by
    intro m
    induction m with
    | zero =>
      intro es
      rw [List.replicate_zero, List.forall₂_nil_right_iff]
      constructor
      · rintro rfl
        simp
      · rintro ⟨h, _⟩
        exact List.length_eq_zero_iff.mp h
    | succ m ih =>
      intro es
      cases es with
      | nil => simp [List.replicate_succ]
      | cons e es =>
        rw [List.replicate_succ, List.forall₂_cons, ih]
        simp only [List.length_cons, List.mem_cons, forall_eq_or_imp]
        constructor
        · rintro ⟨h1, h2, h3⟩
          exact ⟨by omega, h1, h3⟩
        · rintro ⟨h1, h2, h3⟩
          exact ⟨h2, by omega, h3⟩
  constructor
  · rintro ⟨es, h1, h2, h3⟩
    obtain ⟨h4, h5⟩ := (this m es).mp h2
    exact ⟨es, h1, h4, h5, h3⟩
  · rintro ⟨es, h1, h4, h5, h3⟩
    exact ⟨es, h1, (this m es).mpr ⟨h4, h5⟩, h3⟩

/-- **C115.** When every spectrum vanishes at energy zero, as an emission spectrum proportional to the energy does, then with
probability one the routine returns one energy per neutron and all of them are positive. -/
theorem C115_positive (h : Chained y n N E) {b : ℝ} (hb : y.w ≤ b) (hbar : y.barrier[n]? = some b) {nemit : Int} (hne : nemit ≠ 0)
    (hn : 0 < n) (hE : b ≤ E n) (hs : SpectraOK y n (E n) b) (htiny : 0 < y.tiny) (h1 : y.sp1.getD 0 0 = 0)
    (h2 : ∀ i, 2 ≤ i → i ≤ n → ∀ k : Nat, y.w ≤ E n - k * y.w - b → (y.sp i k).getD k 0 = 0) (E0 : ℝ) :
    probIn (energies y nemit n E0) {z | ∃ es, z.1 = some es ∧ es.length = n ∧ ∀ e ∈ es, 0 < e} = 1 := by
  have hw := h.wpos
  obtain ⟨m, rfl⟩ : ∃ m, n = m + 1 := ⟨n - 1, by omega⟩
  have e : {z : Option (List ℝ) × ℝ | ∃ es, z.1 = some es ∧ es.length = m + 1 ∧ ∀ e ∈ es, 0 < e} =
      InAll (Set.Ioi 0 :: List.replicate m (Set.Ioi 0)) Set.univ := by
    ext z
    rw [← List.replicate_succ, inAll_all]
    simp
  have hA : ∀ j : Nat, j ≠ 0 → Set.Ioc (j * y.w - y.w / 2) (j * y.w + y.w / 2) ⊆ Set.Ioi (0 : ℝ) := by
    rintro j hj x ⟨hx, _⟩
    have : (1 : ℝ) ≤ j := by exact_mod_cast Nat.one_le_iff_ne_zero.mpr hj
    simp only [Set.mem_Ioi]
    nlinarith
  rw [e, C115_joint h hb hbar hne hE hs E0 _ _ _ (by simp) (by
    intro B hB
    rcases List.mem_cons.mp hB with rfl | hB
    · exact measurableSet_Ioi
    · rw [List.eq_of_mem_replicate hB]
      exact measurableSet_Ioi)]
  unfold allChance
  simp only [mul_assoc]
  refine portion_one hs.first hs.firstPos ?_
  intro j _
  rcases Nat.eq_zero_or_pos j with rfl | hj0
  · exact Or.inl h1
  · right
    rw [share_full hw (hA j (by omega)), one_mul]
    exact laterChance_one hw hs (fun k => Set.mem_univ _) hA htiny (Or.inr h2) m 2 j le_rfl (by omega)

/-- **C115.** Whatever the spectra, provided they are non-negative and not identically zero over the open bins, the routine
returns one energy per neutron with probability one. -/
theorem C115_ends (h : Chained y n N E) {b : ℝ} (hb : y.w ≤ b) (hbar : y.barrier[n]? = some b) {nemit : Int} (hne : nemit ≠ 0)
    (hn : 0 < n) (hE : b ≤ E n) (hs : SpectraOK y n (E n) b) (E0 : ℝ) :
    probIn (energies y nemit n E0) {z | ∃ es, z.1 = some es ∧ es.length = n} = 1 := by
  have hw := h.wpos
  obtain ⟨m, rfl⟩ : ∃ m, n = m + 1 := ⟨n - 1, by omega⟩
  have e : {z : Option (List ℝ) × ℝ | ∃ es, z.1 = some es ∧ es.length = m + 1} =
      InAll (Set.univ :: List.replicate m Set.univ) Set.univ := by
    ext z
    rw [← List.replicate_succ, inAll_all]
    simp
  rw [e, C115_joint h hb hbar hne hE hs E0 _ _ _ (by simp) (by
    intro B hB
    rcases List.mem_cons.mp hB with rfl | hB
    · exact MeasurableSet.univ
    · rw [List.eq_of_mem_replicate hB]
      exact MeasurableSet.univ)]
  unfold allChance
  simp only [mul_assoc]
  refine portion_one hs.first hs.firstPos ?_
  intro j _
  right
  rw [share_full hw (Set.subset_univ _), one_mul]
  exact laterChance_one hw hs (fun k => Set.mem_univ _) (fun _ _ => Set.subset_univ _) (Set.mem_univ _)
    (Or.inl (Set.subset_univ _)) m 2 j le_rfl (by omega)

/-! ## Just above the barrier -/

theorem later_below {x b : ℝ} (hx : readAt2 y.exc n 0 = .ok x) (hb : readAt y.barrier n = .ok b) (hlt : x - b < y.w) :
    ∀ (m i : Nat) (s : List ℝ), laterAll y n i m 0 s = .ok ((List.replicate m y.tiny, 0), s) := by
  intro m
  induction m with
  | zero => intro i s; rfl
  | succ m ih =>
    intro i s
    have h1 : later y n i 0 s = .ok ((y.tiny, 0), s) := by
      unfold later
      rw [lift_ok_bind hx, lift_ok_bind hb, if_pos hlt]
      rfl
    rw [laterAll]
    refine (Rnd.bind_of_ok h1).trans ((Rnd.bind_of_ok (ih (i + 1) s)).trans ?_)
    rfl

/-- With less than one bin above the barrier the first bin is taken at the first attempt. -/
theorem first_below {eps v e : ℝ} (hw : 0 < y.w) (h0 : 0 ≤ eps) (h1 : eps < y.w) (hv : readAt y.sp1 0 = .ok v) (hv0 : 0 ≤ v)
    (he : ecms y 0 0 0 = .ok e) {r1 r2 r3 : ℝ} (hr1 : 0 ≤ r1 ∧ r1 < 1) (hr2 : 0 ≤ r2 ∧ r2 < 1) (s : List ℝ) :
    first y eps (r1 :: r2 :: r3 :: s) = .ok ((smear y e r3, 0), s) := by
  have hc : ⌈eps / y.w⌉ = 0 ∨ ⌈eps / y.w⌉ = 1 := by
    have a1 := Int.ceil_nonneg (div_nonneg h0 hw.le)
    have a2 : ⌈eps / y.w⌉ ≤ 1 := Int.ceil_le.mpr (by push_cast; rw [div_le_one hw]; exact h1.le)
    omega
  obtain ⟨mx, hm, hmv⟩ : ∃ mx, maxSpec y.sp1 0 ⌈eps / y.w⌉.toNat 0 = .ok mx ∧ 0 ≤ mx ∧ mx ≤ v := by
    rcases hc with hc | hc
    · rw [hc]; exact ⟨0, rfl, le_rfl, hv0⟩
    · rw [hc]
      refine ⟨if 0 < v then v else 0, ?_, ?_, ?_⟩
      · simp [maxSpec, hv, Res.bind]
      · split <;> linarith
      · split <;> linarith
  have hfl : ⌊((0 : Int) : ℝ) + (⌈eps / y.w⌉ : ℝ) * r1⌋ = 0 := by
    rw [Int.floor_eq_zero_iff]
    rcases hc with hc | hc <;> rw [hc] <;> simp [hr1.1, hr1.2]
  have hp : pickBin y.sp1 0 ⌈eps / y.w⌉ mx (r1 :: r2 :: r3 :: s) = .ok (0, r3 :: s) := by
    rw [pickBin, hfl, hv]
    simp only []
    rw [if_neg]
    nlinarith
  unfold first
  rw [lift_ok_bind hm]
  refine (Rnd.bind_of_ok hp).trans ?_
  rw [lift_ok_bind he]
  rfl

theorem unif_unit : unif (Set.Ico 0 1) = 1 := by simp [unif]

theorem unif_upper : unif (Set.Ioo (1 / 2) 1) = ENNReal.ofReal (1 / 2) := by
  unfold unif
  rw [Measure.restrict_apply measurableSet_Ioo, Set.inter_eq_self_of_subset_left (show Set.Ioo (1 / 2 : ℝ) 1 ⊆ Set.Ico 0 1 from
      fun x hx => ⟨by linarith [hx.1], hx.2⟩),
    Real.volume_Ioo]
  norm_num

/-- **C115, refuted at the barrier:** when the last nucleus lies above its barrier by less than one bin, the only open bin has
energy zero, and the energy of the first neutron, whatever its spectrum, is negative with probability at least one half. -/
theorem C115_threshold (h : Chained y n N E) {b : ℝ} (hb : y.w ≤ b) (hbar : y.barrier[n]? = some b) {nemit : Int} (hne : nemit ≠ 0)
    (hn : 0 < n) (hE : b ≤ E n) (hlt : E n < b + y.w) (hsp : 0 ≤ y.sp1.getD 0 0) (E0 : ℝ) :
    ENNReal.ofReal (1 / 2) ≤ probIn (energies y nemit n E0) {z | ∃ e es, z.1 = some (e :: es) ∧ e < 0} := by
  have hw := h.wpos
  have hx := read_top h hb hE
  have hbr := read_barrier (n := n) hbar
  have hN : (0 : Int) < N := bin_lt h hb (by simpa using hE)
  have hv : readAt y.sp1 0 = .ok (y.sp1.getD 0 0) := by
    rw [readAt_ok_iff]
    have : 0 < y.sp1.length := by rw [h.first]; omega
    exact ⟨le_rfl, by simp [List.getD_eq_getElem?_getD, this]⟩
  have he : ecms y 0 0 0 = .ok 0 := by
    have := ecms_reg h hb (i := 0) (k0 := 0) (k := 0) hn le_rfl le_rfl (by simpa using hE)
    simpa using this
  have key : ∀ r1 r2 r3 : ℝ, (0 ≤ r1 ∧ r1 < 1) → (0 ≤ r2 ∧ r2 < 1) → ∀ s, energies y nemit n E0 (r1 :: r2 :: r3 :: s) =
      .ok ((some (smear y 0 r3 :: List.replicate (n - 1) y.tiny), E n), s) := by
    intro r1 r2 r3 hr1 hr2 s
    rw [energies, if_neg (by rintro (hc | hc); exacts [hne hc, by omega]), lift_ok_bind hx, lift_ok_bind hbr,
      if_neg (by linarith)]
    refine (Rnd.bind_of_ok (first_below hw (by linarith) (by linarith) hv hsp he hr1 hr2 s)).trans ?_
    refine (Rnd.bind_of_ok (later_below hx hbr (by linarith) (n - 1) 2 s)).trans ?_
    rw [lift_ok_bind (by simpa using hx)]
    rfl
  have g : prob (gate (Set.Ico 0 1) (gate (Set.Ico 0 1) (gate (Set.Ioo (1 / 2) 1) (pure () : Rnd ℝ Unit)))) () =
      ENNReal.ofReal (1 / 2) := by
    have m0 := meas_pure (α := Unit) ()
    have m1 := meas_gate (R := Set.Ioo (1 / 2) 1) measurableSet_Ioo m0
    have m2 := meas_gate (R := Set.Ico 0 1) measurableSet_Ico m1
    rw [prob_gate measurableSet_Ico m2, prob_gate measurableSet_Ico m1, prob_gate measurableSet_Ioo m0, prob_pure_self,
      unif_unit, unif_upper]
    simp
  rw [← g]
  unfold prob probIn
  apply measure_mono
  rintro ω ⟨k, hk⟩
  obtain ⟨r1, hr1, t1, e1, hk1⟩ := gate_ok.mp hk
  obtain ⟨r2, hr2, t2, e2, hk2⟩ := gate_ok.mp hk1
  obtain ⟨r3, hr3, t3, e3, hk3⟩ := gate_ok.mp hk2
  have e4 : t3 = [] := (Prod.mk.inj (Out.ok.inj hk3)).2
  refine ⟨k, (some (smear y 0 r3 :: List.replicate (n - 1) y.tiny), E n), ?_, _, _, rfl, ?_⟩
  · rw [e1, e2, e3, e4]
    exact key r1 r2 r3 hr1 hr2 []
  · have := hr3.1
    simp only [smear]
    nlinarith

/-! ## The whole choice -/

/-- The events of `n` neutrons whose energies lie in the given sets. -/
def Counted (n : Nat) (S : Set (Option (List ℝ) × ℝ)) : Set (Int × Option (List ℝ) × ℝ) := {z | z.1 = n ∧ z.2 ∈ S}

theorem mark_bind {α β : Type} (f : Rnd ℝ α) (g : α → Rnd ℝ β) (S : Set β) : Same (mark (f >>= g) S) (f >>= fun a => mark (g a) S) := by
  intro s u s'
  obtain rfl : u = () := rfl
  rw [mark_ok, Rnd.bind_ok]
  constructor
  · rintro ⟨b, hb, h1⟩
    obtain ⟨a, t, h2, h3⟩ := Rnd.bind_ok.mp h1
    exact ⟨a, t, h2, mark_ok.mpr ⟨b, hb, h3⟩⟩
  · rintro ⟨a, t, h2, h3⟩
    obtain ⟨b, hb, h4⟩ := mark_ok.mp h3
    exact ⟨b, hb, Rnd.bind_ok.mpr ⟨a, t, h2, h4⟩⟩

theorem mark_pair {f : Rnd ℝ (Option (List ℝ) × ℝ)} (n : Nat) (S : Set (Option (List ℝ) × ℝ)) :
    Same (mark (f >>= fun q => pure ((n : Int), q)) (Counted n S)) (mark f S) := by
  intro s u s'
  obtain rfl : u = () := rfl
  rw [mark_ok, mark_ok]
  constructor
  · rintro ⟨z, ⟨hz1, hz2⟩, h1⟩
    obtain ⟨q, t, h2, h3⟩ := Rnd.bind_ok.mp h1
    cases h3
    exact ⟨q, hz2, h2⟩
  · rintro ⟨q, hq, h2⟩
    exact ⟨(n, q), ⟨rfl, hq⟩, Rnd.bind_ok.mpr ⟨q, s', h2, rfl⟩⟩

open scoped Classical in
/-- **C115.** The law of the pre-fission neutrons of one event: their number has the multi-chance probability, independently of
it the first one is a pre-equilibrium neutron with the pre-equilibrium fraction, and given both the energies follow
`C115_joint` for the nucleus reached by that number of neutrons. -/
theorem C115_event (m : Multi ℝ) (M : Nat) (hM : (M : Int) = m.nemit + 1) (P : Nat → ℝ)
    (hP : ∀ i < M, m.prob[i]? = some (P i)) (h0 : ∀ i < M, 0 ≤ P i) (hmx : ∀ i < M, P i ≤ m.pmax)
    (hsum : 0 < ∑ i ∈ Finset.range M, P i) {f : ℝ} (hf : f ≤ 1) {y : Bool → Sys ℝ} (hnM : n < M) {b : ℝ}
    (h : ∀ t, Chained (y t) n N E) (hb : ∀ t, (y t).w ≤ b) (hbar : ∀ t, (y t).barrier[n]? = some b)
    (hE : b ≤ E n) (hs : ∀ t, SpectraOK (y t) n (E n) b) (E0 : ℝ) (X A : Set ℝ) (As : List (Set ℝ))
    (hlen : As.length + 1 = n) (hm : ∀ B ∈ A :: As, MeasurableSet B) :
    probIn (prefission m f y E0) {z | z.1 = n ∧ z.2 ∈ InAll (A :: As) X} = ENNReal.ofReal (P n / ∑ i ∈ Finset.range M, P i) *
      (ENNReal.ofReal (max f 0) * allChance (y true) (E n) b X A As +
        ENNReal.ofReal (1 - max f 0) * allChance (y false) (E n) b X A As) := by
  have hn : n ≠ 0 := by omega
  have hne : m.nemit ≠ 0 := by omega
  have hpm : 0 < m.pmax := by
    by_contra hc
    have : ∑ l ∈ Finset.range M, P l ≤ 0 := Finset.sum_nonpos fun l hl =>
      (hmx l (Finset.mem_range.mp hl)).trans (not_lt.mp hc)
    linarith
  set c := max f 0 with hcd
  have hc : (if f < 0 then 0 else f) = c := by
    rw [hcd]
    split
    · rw [max_eq_right (by linarith)]
    · rw [max_eq_left (by linarith)]
  set S := InAll (A :: As) X with hS
  have hfam : ∀ t, Same (mark (energies (y t) m.nemit n E0) S) (allMark (y t) n A As X (E n - b)) := fun t =>
    all_mark hne (by omega) (read_top (h t) (hb t) hE) (read_barrier (hbar t)) (by linarith) E0 A As X
  have hmeas : ∀ t, Meas (mark (energies (y t) m.nemit n E0) S) := fun t =>
    (hfam t).meas (meas_allMark (h t).wpos (hm A (by simp)) (fun B hB => hm B (by simp [hB])) X (by linarith))
  have hprob : ∀ t, prob (mark (energies (y t) m.nemit n E0) S) () = allChance (y t) (E n) b X A As := fun t => by
    rw [(hfam t).prob]
    exact prob_allMark (h t) (hb t) (hbar t) (by omega) (hs t) X (hm A (by simp)) hlen fun B hB => hm B (by simp [hB])
  -- the continuation after the number
  set g : Int → Rnd ℝ Unit := fun k => if k = n then
      (Rnd.draw >>= fun r => if r ∈ {r : ℝ | r ≤ c} then mark (energies (y true) m.nemit n E0) S
        else mark (energies (y false) m.nemit n E0) S)
    else Rnd.undef with hg
  have hsame : Same (mark (prefission m f y E0) (Counted n S)) (number m >>= g) := by
    intro s u s'
    rw [show prefission m f y E0 = number m >>= fun n => if n = 0 then pure (0, none, E0) else Rnd.draw >>= fun r =>
      energies (y (decide (r ≤ if f < 0 then 0 else f))) m.nemit n.toNat E0 >>= fun q => pure (n, q) from rfl]
    rw [mark_bind _ _ _ _ _ _]
    refine Same.bind (fun k => ?_) _ _ _
    intro s u s'
    simp only [hg]
    by_cases hk : k = n
    · subst hk
      rw [if_neg (by exact_mod_cast hn), if_pos rfl]
      refine (mark_bind _ _ _ _ _ _).trans ?_
      refine Same.bind (fun r => ?_) _ _ _
      rw [hc, Int.toNat_natCast]
      by_cases hr : r ≤ c
      · rw [if_pos (show r ∈ {r : ℝ | r ≤ c} from hr), decide_eq_true hr]
        exact mark_pair n S
      · rw [if_neg (show r ∉ {r : ℝ | r ≤ c} from hr), decide_eq_false hr]
        exact mark_pair n S
    · rw [if_neg hk]
      constructor
      · intro h1
        exfalso
        obtain rfl : u = () := rfl
        obtain ⟨z, ⟨hz, _⟩, h2⟩ := mark_ok.mp h1
        apply hk
        rw [← hz]
        by_cases h3 : k = 0
        · rw [if_pos h3] at h2
          cases h2
          exact h3
        · rw [if_neg h3] at h2
          obtain ⟨r, t, -, h4⟩ := Rnd.bind_ok.mp h2
          obtain ⟨q, t', -, h5⟩ := Rnd.bind_ok.mp h4
          cases h5
          rfl
      · intro h1
        cases h1
  have hgm : ∀ k, Meas (g k) := by
    intro k
    rw [hg]
    by_cases hk : k = n
    · simp only [if_pos hk]
      exact meas_branch measurableSet_Iic (hmeas true) (hmeas false)
    · simp only [if_neg hk]
      exact meas_undef
  show probIn (prefission m f y E0) (Counted n S) = _
  rw [probIn_mark, hsame.prob, prob_loop (loop_bind (loop_number m M hM) g) hgm hpm P (fun i hi => by
    rw [zero_add, readAt_ok_iff, Int.toNat_natCast]; exact ⟨by omega, hP i hi⟩) h0 hmx hsum, Finset.sum_eq_single n]
  · congr 1
    rw [hg]
    simp only [zero_add, if_true]
    rw [prob_branch (show MeasurableSet {r : ℝ | r ≤ c} from measurableSet_Iic) (hmeas true) (hmeas false), hprob, hprob,
      (unif_le (le_max_right f 0) (max_le hf zero_le_one)).1, (unif_le (le_max_right f 0) (max_le hf zero_le_one)).2]
  · intro i _ hi
    rw [hg]
    simp only [zero_add]
    rw [if_neg (by exact_mod_cast hi), prob_undef, mul_zero]
  · intro hc'
    exact absurd (Finset.mem_range.mpr hnM) hc'

/-- **C115.** An event has no pre-fission neutron with the first-chance probability, and its excitation energy is then
unchanged. -/
theorem C115_first_chance (m : Multi ℝ) (M : Nat) (hM : (M : Int) = m.nemit + 1) (P : Nat → ℝ)
    (hP : ∀ i < M, m.prob[i]? = some (P i)) (h0 : ∀ i < M, 0 ≤ P i) (hmx : ∀ i < M, P i ≤ m.pmax)
    (hsum : 0 < ∑ i ∈ Finset.range M, P i) (f : ℝ) (y : Bool → Sys ℝ) (E0 : ℝ) :
    probIn (prefission m f y E0) {z | z.1 = 0} = ENNReal.ofReal (P 0 / ∑ i ∈ Finset.range M, P i) ∧
      ∀ s s' z, prefission m f y E0 s = .ok (z, s') → z.1 = 0 → z.2 = (none, E0) := by
  have hM0 : 0 < M := by
    rcases Nat.eq_zero_or_pos M with rfl | h'
    · simp at hsum
    · exact h'
  have hz : ∀ s s' z, prefission m f y E0 s = .ok (z, s') → z.1 = 0 → z.2 = (none, E0) ∧ number m s = .ok (0, s') := by
    intro s s' z h1 hz
    obtain ⟨k, t, h2, h3⟩ := Rnd.bind_ok.mp h1
    by_cases hk : k = 0
    · subst hk
      rw [if_pos rfl] at h3
      cases h3
      exact ⟨rfl, h2⟩
    · rw [if_neg hk] at h3
      obtain ⟨r, t1, -, h4⟩ := Rnd.bind_ok.mp h3
      obtain ⟨q, t', -, h5⟩ := Rnd.bind_ok.mp h4
      cases h5
      exact absurd hz hk
  refine ⟨?_, fun s s' z h1 h2 => (hz s s' z h1 h2).1⟩
  rw [← C85_number m M hM P hP h0 hmx hsum 0 hM0]
  unfold probIn prob
  congr 1
  ext ω
  simp only [Set.mem_ofPred_eq, Nat.cast_zero]
  constructor
  · rintro ⟨k, z, h1, h2⟩
    exact ⟨k, (hz _ _ _ h1 h2).2⟩
  · rintro ⟨k, h1⟩
    refine ⟨k, (0, none, E0), ?_, rfl⟩
    refine (Rnd.bind_of_ok h1).trans ?_
    rw [if_pos rfl]
    rfl

/-! ## A chain of three nuclei -/

namespace PreLawDemo

/-- Two neutrons from a nucleus at 5 MeV, with bins of 1 MeV. -/
noncomputable def sys (b : ℝ) : Sys ℝ where
  exc := [[5, 4, 3, 2, 1, 0], [9 / 2, 7 / 2, 5 / 2, 3 / 2, 1 / 2, 0], [4, 3, 2, 1, 0, 0]]
  sep := [1 / 2, 1 / 2]
  barrier := [1, 1, b]
  w := 1
  tiny := 1 / 10
  sp1 := [0, 1, 2, 0, 0, 0]
  sp := fun _ k => if k = 0 then [0, 1, 1, 0, 0, 0] else if k = 1 then [0, 0, 1, 0, 0, 0] else [0, 0, 0, 0, 0, 0]

noncomputable def en (i : Nat) : ℝ := 5 - i / 2

theorem chained (b : ℝ) : Chained (sys b) 2 6 en := by
  refine ⟨by norm_num [sys], ?_, ?_, by norm_num [sys, en], rfl, ?_⟩
  · intro i hi
    interval_cases i <;> simp [sys, en, List.range_succ] <;> norm_num
  · intro i hi
    refine ⟨1 / 2, ?_, by norm_num, ?_⟩
    · interval_cases i <;> rfl
    · simp only [en]
      push_cast
      ring
  · intro i k
    simp only [sys]
    split
    · rfl
    · split <;> rfl

theorem of1 : openFirst 1 4 2 = 2 := by
  unfold openFirst
  norm_num
  rfl

theorem ol0 : openLater 1 4 2 0 = 3 := by
  unfold openLater
  norm_num
  rfl

theorem ol1 : openLater 1 4 2 1 = 2 := by
  unfold openLater
  norm_num
  rfl

theorem ok : SpectraOK (sys 2) 2 (en 2) 2 := by
  have e : en 2 = 4 := by norm_num [en]
  have hw : (sys 2).w = 1 := rfl
  refine ⟨?_, ?_, ?_⟩
  · rw [e, hw, of1]
    intro j hj
    interval_cases j <;> norm_num [sys]
  · rw [e, hw, of1]
    norm_num [sys, Finset.sum_range_succ]
  · intro i _ _ k hk
    rw [e, hw] at hk ⊢
    have hk2 : (k : ℝ) ≤ 1 := by linarith
    have hk1 : k ≤ 1 := by exact_mod_cast hk2
    interval_cases k
    · rw [ol0]
      refine ⟨fun j hj => ?_, ?_⟩
      · interval_cases j <;> norm_num [sys]
      · norm_num [sys, Finset.sum_range_succ]
    · rw [ol1]
      refine ⟨fun j hj => ?_, ?_⟩
      · interval_cases j <;> norm_num [sys]
      · norm_num [sys, Finset.sum_range_succ]

/-- Both energies are positive with probability one. -/
example : probIn (energies (sys 2) 2 2 5) {z | ∃ es, z.1 = some es ∧ es.length = 2 ∧ ∀ e ∈ es, 0 < e} = 1 :=
  C115_positive (chained 2) (b := 2) (by norm_num [sys]) rfl (by norm_num) (by norm_num) (by norm_num [en]) ok
    (by norm_num [sys]) (by norm_num [sys]) (by
      intro i _ _ k _
      simp only [sys]
      rcases k with _ | _ | k
      · norm_num
      · norm_num
      · rw [if_neg (by omega), if_neg (by omega)]
        rcases k with _ | _ | _ | _ | k <;> simp) 5

example : probIn (energies (sys 2) 2 2 5) {z | ∃ es, z.1 = some es ∧ es.length = 2} = 1 :=
  C115_ends (chained 2) (b := 2) (by norm_num [sys]) rfl (by norm_num) (by norm_num) (by norm_num [en]) ok 5

theorem chance (A B : Set ℝ) (X : Set ℝ) (hX : (2 : ℝ) ∈ X) :
    allChance (sys 2) (en 2) 2 X A [B] = share 1 1 A * share 1 1 B := by
  have e : en 2 = 4 := by norm_num [en]
  have hw : (sys 2).w = 1 := rfl
  unfold allChance
  rw [e, hw, of1]
  have p0 : portion (fun j => (sys 2).sp1.getD j 0) 2 0 = 0 := by norm_num [portion, sys, Finset.sum_range_succ]
  have p1 : portion (fun j => (sys 2).sp1.getD j 0) 2 1 = 1 := by norm_num [portion, sys, Finset.sum_range_succ]
  rw [Finset.sum_range_succ, Finset.sum_range_succ, Finset.sum_range_zero, p0, p1]
  unfold laterChance
  rw [hw, if_neg (by norm_num), if_neg (by norm_num), ol0, ol1]
  have q0 : portion (fun j => ((sys 2).sp 2 (1 : Nat)).getD (1 + j) 0) 2 0 = 0 := by
    norm_num [portion, sys, Finset.sum_range_succ]
  have q1 : portion (fun j => ((sys 2).sp 2 (1 : Nat)).getD (1 + j) 0) 2 1 = 1 := by
    norm_num [portion, sys, Finset.sum_range_succ]
  rw [Finset.sum_range_succ (n := 1), Finset.sum_range_succ (n := 0), Finset.sum_range_zero (M := ENNReal), q0, q1]
  unfold laterChance
  rw [hw]
  norm_num
  intro hc
  exact absurd hX hc

/-- The first neutron has an energy in `(1/2, 1]` and the second one an energy above `3/4`, and 2 MeV are left. -/
example : probIn (energies (sys 2) 2 2 5) (InAll [Set.Ioc (1 / 2) 1, Set.Ioi (3 / 4)] {2}) =
    share 1 1 (Set.Ioc (1 / 2) 1) * share 1 1 (Set.Ioi (3 / 4)) := by
  rw [C115_joint (chained 2) (b := 2) (by norm_num [sys]) rfl (by norm_num) (by norm_num [en]) ok 5 _ _ _ rfl (by
    intro B hB
    simp only [List.mem_cons, List.not_mem_nil, or_false] at hB
    rcases hB with rfl | rfl
    · exact measurableSet_Ioc
    · exact measurableSet_Ioi)]
  exact chance _ _ _ rfl

example : share 1 1 (Set.Ioc (1 / 2) 1) = ENNReal.ofReal (1 / 2) := by
  unfold share
  rw [Set.Ioc_inter_Ioc, Real.volume_Ioc]
  norm_num

/-- Half an MeV above the barrier the first neutron has a negative energy at least half of the time. -/
example : ENNReal.ofReal (1 / 2) ≤ probIn (energies (sys (7 / 2)) 2 2 5) {z | ∃ e es, z.1 = some (e :: es) ∧ e < 0} :=
  C115_threshold (chained (7 / 2)) (b := 7 / 2) (by norm_num [sys]) rfl (by norm_num) (by norm_num) (by norm_num [en])
    (by norm_num [sys, en]) (by norm_num [sys]) 5

noncomputable def mult : Multi ℝ := ⟨2, [1 / 2, 1 / 4, 1 / 4], 1 / 2⟩

/-- A quarter of the events have two neutrons; the energies do not depend on the pre-equilibrium fraction when the two first
spectra agree. -/
example : probIn (prefission mult (1 / 3) (fun _ => sys 2) 5)
      {z | z.1 = (2 : Nat) ∧ z.2 ∈ InAll [Set.Ioc (1 / 2) 1, Set.Ioi (3 / 4)] {2}} =
    ENNReal.ofReal (1 / 4) * (ENNReal.ofReal (1 / 3) * (share 1 1 (Set.Ioc (1 / 2) 1) * share 1 1 (Set.Ioi (3 / 4))) +
      ENNReal.ofReal (2 / 3) * (share 1 1 (Set.Ioc (1 / 2) 1) * share 1 1 (Set.Ioi (3 / 4)))) := by
  have := C115_event (n := 2) mult 3 rfl (fun i => [1 / 2, 1 / 4, 1 / 4].getD i 0) (fun i hi => by interval_cases i <;> rfl)
    (fun i hi => by interval_cases i <;> norm_num) (fun i hi => by interval_cases i <;> norm_num [mult])
    (by norm_num [Finset.sum_range_succ]) (f := 1 / 3) (by norm_num) (y := fun _ => sys 2) (by norm_num) (b := 2)
    (fun _ => chained 2) (fun _ => by norm_num [sys]) (fun _ => rfl) (by norm_num [en]) (fun _ => ok) 5 {2}
    (Set.Ioc (1 / 2) 1) [Set.Ioi (3 / 4)] rfl (by
      intro B hB
      simp only [List.mem_cons, List.not_mem_nil, or_false] at hB
      rcases hB with rfl | rfl
      · exact measurableSet_Ioc
      · exact measurableSet_Ioi)
  rw [this, chance _ _ {2} rfl]
  norm_num [Finset.sum_range_succ]

example : probIn (prefission mult (1 / 3) (fun _ => sys 2) 5) {z | z.1 = 0} = ENNReal.ofReal (1 / 2) := by
  rw [(C115_first_chance mult 3 rfl (fun i => [1 / 2, 1 / 4, 1 / 4].getD i 0) (fun i hi => by interval_cases i <;> rfl)
    (fun i hi => by interval_cases i <;> norm_num) (fun i hi => by interval_cases i <;> norm_num [mult])
    (by norm_num [Finset.sum_range_succ]) (1 / 3) (fun _ => sys 2) 5).1]
  norm_num [Finset.sum_range_succ]

end PreLawDemo

end CGMF.Props

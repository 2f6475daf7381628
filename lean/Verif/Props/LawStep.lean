import Verif.Proofs.Reach
import Verif.Proofs.Widths
import Verif.Props.HF
import Verif.Props.LawCascade

/-!
# C87: law of one decay step

Probabilities refer to independent uniform random numbers (`Spec/Law.lean`).
-/

namespace CGMF.Props

open MeasureTheory CGMF.Law CGMF.MC CGMF.Grid CGMF.HF

/-- Events that agree when all numbers are strictly between 0 and 1 have the same probability. -/
theorem stream_congr {A B : Set (ℕ → ℝ)} (h : ∀ ω, Inside ω → (ω ∈ A ↔ ω ∈ B)) : stream A = stream B := by
  apply measure_congr
  refine Filter.eventuallyEq_set.mpr ?_
  have h0 : ∀ᵐ ω ∂stream, Inside ω := stream_inside
  filter_upwards [h0] with ω hω
  exact h ω hω

theorem unif_univ : unif Set.univ = 1 := by
  unfold unif
  rw [Measure.restrict_apply MeasurableSet.univ, Set.univ_inter, Real.volume_Ico]
  norm_num

/-- Probability that a running-sum selection ends in a set of entries. -/
theorem select_set {α : Type} (P : α → Prop) [DecidablePred P] (l : List (α × ℝ)) (h0 : ∀ y ∈ l, 0 ≤ y.2)
    (h1 : (l.map (·.2)).sum ≤ 1) :
    stream {ω | ∃ a, firstReach (ω 0) 0 l = some a ∧ P a} = ENNReal.ofReal (l.map fun y => if P y.1 then y.2 else 0).sum := by
  have h := select_law (fun a => {x : ℝ | P a}) (fun a => MeasurableSet.const _) l h0 h1
  refine (Eq.trans ?_ h).trans ?_
  · rfl
  · rw [← sum_ofReal]
    · congr 1
      apply List.map_congr_left
      intro y _
      by_cases hP : P y.1
      · rw [if_pos hP, show {x : ℝ | P y.1} = Set.univ from Set.eq_univ_of_forall fun _ => hP, unif_univ, mul_one]
      · rw [if_neg hP, show {x : ℝ | P y.1} = ∅ from Set.eq_empty_of_forall_notMem fun _ h => hP h, measure_empty, mul_zero,
          ENNReal.ofReal_zero]
    · intro x hx
      split
      · exact h0 x hx
      · exact le_refl _

theorem denotes_iff {c0 : Nat} {n0 n1 : Nuc ℝ} {m0 m1 : Mesh ℝ} {b : Bool} {c : Cell} {x : MCPoint ℝ} :
    Denotes c0 n0 n1 m0 m1 (b, c) x ↔ (if b then cellPoint n0.next n1 m1 c else cellPoint c0 n0 m0 c) = some x := by
  refine ⟨fun h => ?_, denotes_of⟩
  cases b <;> cases c with
  | cont k idx even => exact congrArg some h.symm
  | disc i =>
    obtain ⟨l, h1, h2⟩ := h
    exact Option.map_eq_some_iff.mpr ⟨l, h1, h2.symm⟩

theorem parity_inj : ∀ (e e' : Bool), (if e then (1 : Int) else -1) = (if e' then 1 else -1) → e = e' := by decide

/-- Different states are different points. -/
theorem denotes_inj {c0 : Nat} {n0 n1 : Nuc ℝ} {m0 m1 : Mesh ℝ} (hne : c0 ≠ n0.next) {a b : Bool × Cell} {x : MCPoint ℝ}
    (h1 : Denotes c0 n0 n1 m0 m1 a x) (h2 : Denotes c0 n0 n1 m0 m1 b x) : a = b := by
  obtain ⟨a1, a2⟩ := a
  obtain ⟨b1, b2⟩ := b
  cases a1 <;> cases b1 <;> cases a2 <;> cases b2 <;> simp only [Denotes] at h1 h2
  all_goals first
    | (obtain ⟨l, h3, rfl⟩ := h1; obtain ⟨l', h4, h5⟩ := h2; simp only [MCPoint.mk.injEq] at h5; simp_all)
    | (obtain ⟨l, h3, rfl⟩ := h1; simp only [MCPoint.mk.injEq] at h2; simp_all)
  all_goals exact parity_inj _ _ h2.1

/-- The state selected by `mcFindNext`. -/
theorem findNext_event (c0 : Nat) (n0 n1 : Nuc ℝ) (m0 m1 : Mesh ℝ) (pops : Pops ℝ) (p j : Int)
    (hsum : ((candidates n0 n1 m0 m1 pops).map Prod.snd).sum = 1) (ω : ℕ → ℝ) (hω : Inside ω) :
    ∃ a x, firstReach (ω 0) 0 (candidates n0 n1 m0 m1 pops) = some a ∧ Denotes c0 n0 n1 m0 m1 a x ∧
      ∀ s, findNext c0 n0 n1 m0 m1 pops p j (ω 0 :: s) = .ok (x, s) := by
  obtain ⟨⟨b, c⟩, hc⟩ := reach_total (candidates n0 n1 m0 m1 pops) 0 (ω 0) (by
    rw [zero_add]
    exact le_of_lt (lt_of_lt_of_eq (hω 0).2 hsum.symm)) (hω 0).1
  obtain ⟨l1, y, l2, e, -, -⟩ := firstReach_some hc
  have hm : ((b, c), y) ∈ candidates n0 n1 m0 m1 pops := by rw [e]; simp
  have hx : ∃ x, (if b then cellPoint n0.next n1 m1 c else cellPoint c0 n0 m0 c) = some x := by
    rcases candidates_cell hm with ⟨rfl, h⟩ | ⟨rfl, h⟩
    · exact cellPoint_some h
    · exact cellPoint_some h
  obtain ⟨x, hx⟩ := hx
  refine ⟨(b, c), x, hc, denotes_of hx, ?_⟩
  intro s
  unfold findNext
  rw [Rnd.bind_run, Rnd.draw_cons]
  simp only [hc]
  cases b
  · exact Rnd.get_ok.mpr ⟨hx, rfl⟩
  · exact Rnd.get_ok.mpr ⟨hx, rfl⟩

/-- Sum over a list without repetitions that picks one entry. -/
theorem sum_pick {α : Type} [DecidableEq α] (a : α) : ∀ (l : List (α × ℝ)), (l.map Prod.fst).Nodup →
    (∀ v, (a, v) ∈ l → (l.map fun y => if y.1 = a then y.2 else 0).sum = v) ∧
    ((∀ v, (a, v) ∉ l) → (l.map fun y => if y.1 = a then y.2 else 0).sum = 0) := by
  intro l
  induction l with
  | nil => intro _; exact ⟨fun v h => by simp at h, fun _ => rfl⟩
  | cons y l ih =>
    intro hn
    rw [List.map_cons, List.nodup_cons] at hn
    obtain ⟨i1, i2⟩ := ih hn.2
    refine ⟨fun v hv => ?_, fun hv => ?_⟩
    · rw [List.map_cons, List.sum_cons]
      rcases List.mem_cons.mp hv with h | h
      · subst h
        rw [if_pos rfl, i2, add_zero]
        intro v' hv'
        exact hn.1 (List.mem_map.mpr ⟨_, hv', rfl⟩)
      · rw [if_neg, zero_add, i1 v h]
        rintro rfl
        exact hn.1 (List.mem_map.mpr ⟨_, h, rfl⟩)
    · rw [List.map_cons, List.sum_cons, i2, add_zero, if_neg]
      · rintro rfl
        exact hv y.2 (List.mem_cons_self ..)
      · intro v h
        exact hv v (List.mem_cons_of_mem _ h)

/-- Selection from given populations. -/
theorem prob_findNext (maxJ : Nat) (hJ : 0 < maxJ) (w : ℝ) (hw : 0 ≤ w) (c0 : Nat) (n0 n1 : Nuc ℝ) (m0 m1 : Mesh ℝ) (ph : Phys ℝ)
    (hph : PhysNonneg ph) (p j jmax0 jmax1 : Int) (hj : 0 ≤ j) (hf : Fits n0 n1 p) (hne : c0 ≠ n0.next)
    (hpos : photonWidth maxJ w n0 n1 m0 m1 ph p j + neutronWidth maxJ w n0 n1 m0 m1 ph p j ≠ 0) (pops : Pops ℝ) (s s' : List ℝ)
    (h : compoundDecay maxJ w n0 n1 m0 m1 ph p j jmax0 jmax1 s = .ok (pops, s')) (a : Bool × Cell)
    (ha : InTable maxJ n0 n1 m0 m1 a) (x : MCPoint ℝ) (hx : Denotes c0 n0 n1 m0 m1 a x) :
    prob (findNext c0 n0 n1 m0 m1 pops p j) x = ENNReal.ofReal (strength maxJ w n0 n1 m0 m1 ph p j a /
      (photonWidth maxJ w n0 n1 m0 m1 ph p j + neutronWidth maxJ w n0 n1 m0 m1 ph p j)) := by
  have hsum := candidates_sum h
  obtain ⟨hg, hn⟩ := pops_nonneg hw hph h
  have hnn := candidates_nonneg (n0 := n0) (n1 := n1) (m0 := m0) (m1 := m1) hg hn
  have hev : prob (findNext c0 n0 n1 m0 m1 pops p j) x =
      stream {ω | ∃ b, firstReach (ω 0) 0 (candidates n0 n1 m0 m1 pops) = some b ∧ b = a} := by
    apply stream_congr
    intro ω hω
    obtain ⟨b, y, h1, h2, h3⟩ := findNext_event c0 n0 n1 m0 m1 pops p j hsum ω hω
    simp only [Set.mem_ofPred_eq]
    constructor
    · rintro ⟨n, hn⟩
      rcases n with _ | n
      · cases hn
      · rw [pre_succ, h3] at hn
        simp only [Out.ok.injEq, Prod.mk.injEq] at hn
        rw [hn.1] at h2
        exact ⟨b, h1, denotes_inj hne h2 hx⟩
    · rintro ⟨b', h4, rfl⟩
      rw [h1] at h4
      cases h4
      refine ⟨1, ?_⟩
      have : y = x := by
        have e1 := denotes_iff.mp h2
        have e2 := denotes_iff.mp hx
        rw [e1] at e2
        exact Option.some.inj e2
      rw [pre_succ, h3, this]
      rfl
  rw [hev, select_set (fun b => b = a) _ hnn (le_of_eq hsum)]
  congr 1
  obtain ⟨t1, t2⟩ := total_widths (m1 := m1) (m0 := m0) (ph := ph) (w := w) hJ hj hf
  obtain ⟨nt, hnt, hj0, hj1, hc⟩ := compoundDecay_ok h
  obtain ⟨p1, p2⟩ := pop_strength (maxJ := maxJ) (w := w) (m0 := m0) (m1 := m1) (ph := ph) (j := j) hf
  rw [← hnt] at t2 p2
  rcases hc with ⟨hz, -⟩ | ⟨ht, -, hpg, hpn⟩
  · rw [t1, t2] at hz
    exact absurd hz hpos
  rw [t1, t2] at hpg hpn
  set W := photonWidth maxJ w n0 n1 m0 m1 ph p j + neutronWidth maxJ w n0 n1 m0 m1 ph p j with hW
  obtain ⟨s1, s2⟩ := sum_pick a (candidates n0 n1 m0 m1 pops) (C20_states_once n0 n1 m0 m1 pops)
  obtain ⟨b, c⟩ := a
  have hmem : ∀ v, ((b, c), v) ∈ candidates n0 n1 m0 m1 pops ↔
      (b = false ∧ c ∈ cells 1 m0.ncont pops.jmax0 n0.levels.length ∧ v = popOf pops.g c) ∨
      (b = true ∧ n0.status = true ∧ c ∈ cells 0 m1.ncont pops.jmax1 n1.levels.length ∧ v = popOf pops.n c) := by
    intro v
    unfold candidates
    by_cases hs : n0.status = true
    · rw [if_pos hs]
      simp only [List.mem_append, List.mem_map, Prod.mk.injEq]
      constructor
      · rintro (⟨c', h1, ⟨h2, rfl⟩, rfl⟩ | ⟨c', h1, ⟨h2, rfl⟩, rfl⟩)
        · exact .inl ⟨h2.symm, h1, rfl⟩
        · exact .inr ⟨h2.symm, hs, h1, rfl⟩
      · rintro (⟨rfl, h1, rfl⟩ | ⟨rfl, _, h1, rfl⟩)
        · exact .inl ⟨c, h1, ⟨rfl, rfl⟩, rfl⟩
        · exact .inr ⟨c, h1, ⟨rfl, rfl⟩, rfl⟩
    · rw [if_neg hs]
      simp only [List.append_nil, List.mem_map, Prod.mk.injEq]
      constructor
      · rintro ⟨c', h1, ⟨h2, rfl⟩, rfl⟩
        exact .inl ⟨h2.symm, h1, rfl⟩
      · rintro (⟨rfl, h1, rfl⟩ | ⟨rfl, h3, h1, rfl⟩)
        · exact ⟨c, h1, ⟨rfl, rfl⟩, rfl⟩
        · exact absurd h3 hs
  cases b with
  | false =>
    rw [← p1 c ha]
    by_cases hin : c ∈ cells 1 m0.ncont pops.jmax0 n0.levels.length
    · rw [s1 _ ((hmem _).mpr (.inl ⟨rfl, hin, rfl⟩)), hpg, popOf_scale]
      ring
    · rw [s2]
      · rw [popOf_eq_zero, zero_div]
        intro t ht heq
        rw [hj0] at hin
        exact hin (heq ▸ gammaTerms_cells ht)
      · intro v hv
        rcases (hmem v).mp hv with ⟨_, h2, _⟩ | ⟨h2, _⟩
        · exact hin h2
        · cases h2
  | true =>
    rw [← p2 c ha]
    by_cases hin : n0.status = true ∧ c ∈ cells 0 m1.ncont pops.jmax1 n1.levels.length
    · rw [s1 _ ((hmem _).mpr (.inr ⟨rfl, hin.1, hin.2, rfl⟩)), hpn, popOf_scale]
      ring
    · rw [s2]
      · rw [popOf_eq_zero, zero_div]
        intro t ht heq
        rw [hnt] at ht
        by_cases ho : nOpen n0 m0 = true
        · rw [if_pos ho] at ht
          rw [hj1, if_pos ho] at hin
          have hst : n0.status = true := by
            unfold nOpen at ho
            simp at ho
            exact ho.1
          exact hin ⟨hst, heq ▸ neutronTerms_cells ht⟩
        · rw [if_neg ho] at ht
          cases ht
      · intro v hv
        rcases (hmem v).mp hv with ⟨h2, _⟩ | ⟨_, h2, h3, _⟩
        · cases h2
        · exact hin ⟨h2, h3⟩

/-- A decay step with open channels draws no random numbers for the populations. -/
theorem compoundDecay_pure {maxJ : Nat} (hJ : 0 < maxJ) {w : ℝ} {n0 n1 : Nuc ℝ} {m0 m1 : Mesh ℝ} {ph : Phys ℝ}
    {p j : Int} (jmax0 jmax1 : Int) (hj : 0 ≤ j) (hf : Fits n0 n1 p)
    (hpos : photonWidth maxJ w n0 n1 m0 m1 ph p j + neutronWidth maxJ w n0 n1 m0 m1 ph p j ≠ 0) :
    ∃ pops, compoundDecay maxJ w n0 n1 m0 m1 ph p j jmax0 jmax1 = pure pops := by
  obtain ⟨t1, t2⟩ := total_widths (m1 := m1) (m0 := m0) (ph := ph) (w := w) hJ hj hf
  unfold compoundDecay
  dsimp only
  exact ⟨_, if_neg (by rw [t1, t2]; exact hpos)⟩

/-! ## C87 -/

/-- **C87.**  From a continuum state of parity `p` and spin index `j` the Monte Carlo moves to the state `x` with probability
equal to its transmission divided by the total transmission of photons and neutrons (Hauser-Feshbach formula).  This holds
for every state in the tables, also for those which the spin limit of the loops leaves out. -/
theorem C87_branching (maxJ : Nat) (hJ : 0 < maxJ) (w : ℝ) (hw : 0 ≤ w) (c0 : Nat) (n0 n1 : Nuc ℝ) (m0 m1 : Mesh ℝ) (ph : Phys ℝ)
    (hph : PhysNonneg ph) (p j jmax0 jmax1 : Int) (hj : 0 ≤ j) (hf : Fits n0 n1 p) (hne : c0 ≠ n0.next)
    (hpos : photonWidth maxJ w n0 n1 m0 m1 ph p j + neutronWidth maxJ w n0 n1 m0 m1 ph p j ≠ 0) (a : Bool × Cell)
    (ha : InTable maxJ n0 n1 m0 m1 a) (x : MCPoint ℝ) (hx : Denotes c0 n0 n1 m0 m1 a x) :
    prob (do let pops ← compoundDecay maxJ w n0 n1 m0 m1 ph p j jmax0 jmax1
             findNext c0 n0 n1 m0 m1 pops p j) x =
      ENNReal.ofReal (strength maxJ w n0 n1 m0 m1 ph p j a /
        (photonWidth maxJ w n0 n1 m0 m1 ph p j + neutronWidth maxJ w n0 n1 m0 m1 ph p j)) := by
  obtain ⟨pops, h⟩ := compoundDecay_pure hJ jmax0 jmax1 hj hf hpos
  rw [h]
  exact prob_findNext maxJ hJ w hw c0 n0 n1 m0 m1 ph hph p j jmax0 jmax1 hj hf hne hpos pops [] [] (by rw [h]; rfl) a ha x hx

/-- **C87**, competition: a pass of the continuum loop emits a neutron with probability `Γn / (Γn + Γγ)`. -/
theorem C87_competition (par : Par ℝ) (hJ : 0 < par.maxJ) (hw : 0 ≤ par.w) (st : St ℝ) (m : MCPoint ℝ) (n0 n1 : Nuc ℝ)
    (m0 m1 : Mesh ℝ) (hn0 : par.chain[m.n]? = some n0) (hm0 : setup par.w par.nbin (elmax n0.levels) m.e = .ok m0)
    (hst : n0.status = true) (hn1 : par.chain[n0.next]? = some n1)
    (hm1 : setup par.w par.nbin (elmax n1.levels) (m.e - n0.sn) = .ok m1) (hne : m.n ≠ n0.next) (hl1 : n1.levels ≠ [])
    (hj : 0 ≤ m.j) (hjm : m.j < (par.maxJ : Int)) (hph : PhysNonneg (par.phys m.n m.e)) (hf : Fits n0 n1 m.p)
    (hcap : st.hs.length + 1 < par.cap)
    (hpos : photonWidth par.maxJ par.w n0 n1 m0 m1 (par.phys m.n m.e) m.p m.j +
      neutronWidth par.maxJ par.w n0 n1 m0 m1 (par.phys m.n m.e) m.p m.j ≠ 0) :
    stream {ω | ∃ k st' x h, contStep par st m (pre ω k) = .ok ((st', x), []) ∧ st'.hs = st.hs ++ [h] ∧ h.id = Pid.neutron} =
      ENNReal.ofReal (neutronWidth par.maxJ par.w n0 n1 m0 m1 (par.phys m.n m.e) m.p m.j /
        (photonWidth par.maxJ par.w n0 n1 m0 m1 (par.phys m.n m.e) m.p m.j +
          neutronWidth par.maxJ par.w n0 n1 m0 m1 (par.phys m.n m.e) m.p m.j)) := by
  obtain ⟨pops, h⟩ := compoundDecay_pure hJ (st.jmax m.n) (st.jmax n0.next) hj hf hpos
  have h' : compoundDecay par.maxJ par.w n0 n1 m0 m1 (par.phys m.n m.e) m.p m.j (st.jmax m.n) (st.jmax n0.next) [] =
      .ok (pops, []) := by rw [h]; rfl
  have hsum := candidates_sum h'
  obtain ⟨hg, hn⟩ := pops_nonneg hw hph h'
  have hnn := candidates_nonneg (n0 := n0) (n1 := n1) (m0 := m0) (m1 := m1) hg hn
  set jm : Nat → Int := fun c => if c = m.n then pops.jmax0 else if n0.status ∧ c = n0.next then pops.jmax1 else st.jmax c
    with hjmdef
  -- the pass in terms of its parts
  have hstep : ∀ s, contStep par st m s = (do
      let x ← findNext m.n n0 n1 m0 m1 pops m.p m.j
      let x ← perturb (side m x (n0, m0) (n1, m1)).1 (side m x (n0, m0) (n1, m1)).2 x
      let x ← lowCut par n0 m x
      let st ← store par false m x { st with jmax := jm }
      pure (st, x) : Rnd ℝ (St ℝ × MCPoint ℝ)) s := by
    intro s
    unfold contStep
    rw [Rnd.bind_of_ok (Rnd.get_ok.mpr ⟨hn0, rfl⟩), Rnd.bind_of_ok (Rnd.lift_ok.mpr ⟨hm0, rfl⟩)]
    have hd : daughter par n0 m0 m.e s = .ok ((n1, m1), s) := by
      unfold daughter
      rw [if_pos hst, Rnd.bind_of_ok (Rnd.get_ok.mpr ⟨hn1, rfl⟩), Rnd.bind_of_ok (Rnd.lift_ok.mpr ⟨hm1, rfl⟩)]
      rfl
    rw [Rnd.bind_of_ok hd, if_neg (by omega)]
    rw [Rnd.bind_of_ok (show compoundDecay par.maxJ par.w n0 n1 m0 m1 (par.phys m.n m.e) m.p m.j (st.jmax m.n)
      (st.jmax n0.next) s = .ok (pops, s) by rw [h]; rfl)]
  have hev : stream {ω | ∃ k st' x h, contStep par st m (pre ω k) = .ok ((st', x), []) ∧ st'.hs = st.hs ++ [h] ∧
        h.id = Pid.neutron} =
      stream {ω | ∃ b, firstReach (ω 0) 0 (candidates n0 n1 m0 m1 pops) = some b ∧ b.1 = true} := by
    apply stream_congr
    intro ω hω
    obtain ⟨⟨b, c⟩, y, h1, h2, h3⟩ := findNext_event m.n n0 n1 m0 m1 pops m.p m.j hsum ω hω
    simp only [Set.mem_ofPred_eq]
    have hyn : y.n = if b then n0.next else m.n := by
      cases b <;> cases c with
      | cont k idx even => rw [show y = _ from h2]; rfl
      | disc i => obtain ⟨l, _, h5⟩ := h2; rw [h5]; rfl
    constructor
    · rintro ⟨k, st', x, hh, g1, g2, g3⟩
      rcases k with _ | k
      · rw [hstep, Rnd.bind_ok] at g1
        obtain ⟨_, _, g4, _⟩ := g1
        cases g4
      · rw [hstep, pre_succ, Rnd.bind_of_ok (h3 _), Rnd.bind_ok] at g1
        obtain ⟨x1, s1, g4, g5⟩ := g1
        obtain ⟨x2, s2, g6, g7⟩ := Rnd.bind_ok.mp g5
        obtain ⟨st2, s3, g8, g9⟩ := Rnd.bind_ok.mp g7
        obtain ⟨g10, -⟩ := Rnd.pure_ok.mp g9
        simp only [Prod.mk.injEq] at g10
        obtain ⟨-, -, nn, -, g11⟩ := store_ok g8
        rw [show st' = st2 from by first | exact g10.1 | exact g10.1.symm, g11] at g2
        simp only [List.append_cancel_left_eq, List.cons.injEq, and_true] at g2
        have hx1 : x1.n = y.n := (perturb_keeps g4).1
        have hx2 : x2.n = x1.n := by
          rcases lowCut_ok g6 with rfl | ⟨e1, i, l, _, rfl⟩
          · rfl
          · exact e1
        refine ⟨(b, c), h1, ?_⟩
        by_contra hb
        rw [Bool.not_eq_true] at hb
        simp only at hb
        rw [hb] at hyn
        rw [if_pos (by rw [hx2, hx1, hyn]; rfl)] at g2
        rw [← g2] at g3
        cases g3
    · rintro ⟨b', h4, h5⟩
      rw [h1] at h4
      cases h4
      simp only at h5
      subst h5
      simp only [if_true] at hyn
      have hside : side m y (n0, m0) (n1, m1) = (n1, m1) := by
        unfold side
        rw [if_neg (by rw [hyn]; exact hne)]
      have hfin : ∀ x : MCPoint ℝ, x.n = n0.next → ∀ s, ∃ st' h, (do
          let x ← lowCut par n0 m x
          let st ← store par false m x { st with jmax := jm }
          pure (st, x) : Rnd ℝ (St ℝ × MCPoint ℝ)) s = .ok ((st', x), s) ∧ st'.hs = st.hs ++ [h] ∧ h.id = Pid.neutron := by
        intro x hx s
        have e1 : lowCut par n0 m x s = .ok (x, s) := by
          unfold lowCut
          rw [if_neg (by rw [hx]; exact hne)]
          rfl
        have e2 : store par false m x { st with jmax := jm } s =
            .ok (⟨st.hs ++ [⟨.neutron, m.e - x.e - n0.sn, m⟩], st.ts, jm⟩, s) := by
          unfold store
          have g1 : ¬ par.cap ≤ st.hs.length := by omega
          have g2 : ¬ st.hs.length + 1 = par.cap := by omega
          have g3 : ¬ m.n = x.n := by rw [hx]; exact hne
          simp only [g1, g2, g3, if_false]
          rw [Rnd.bind_of_ok (Rnd.get_ok.mpr ⟨hn0, rfl⟩)]
          rfl
        refine ⟨⟨st.hs ++ [⟨.neutron, m.e - x.e - n0.sn, m⟩], st.ts, jm⟩, ⟨.neutron, m.e - x.e - n0.sn, m⟩, ?_, rfl, rfl⟩
        rw [Rnd.bind_of_ok e1, Rnd.bind_of_ok e2]
        rfl
      by_cases hd : y.disc = true
      · obtain ⟨st', hh, g1, g2, g3⟩ := hfin y hyn (pre (shift 1 ω) 0)
        refine ⟨1, st', y, hh, ?_, g2, g3⟩
        rw [hstep, pre_succ, Rnd.bind_of_ok (h3 _), hside]
        have : perturb n1 m1 y (pre (shift 1 ω) 0) = .ok (y, pre (shift 1 ω) 0) := by
          unfold perturb
          rw [if_pos hd]
          rfl
        rw [Rnd.bind_of_ok this, g1]
        rfl
      · obtain ⟨top, htop⟩ : ∃ top, n1.levels.getLast? = some top := ⟨_, List.getLast?_eq_getLast_of_ne_nil hl1⟩
        have hp : ∃ x, x.n = n0.next ∧ perturb n1 m1 y (pre (shift 1 ω) 1) = .ok (x, []) := by
          unfold perturb
          rw [if_neg hd, Rnd.bind_of_ok (Rnd.get_ok.mpr ⟨htop, rfl⟩)]
          refine ⟨⟨y.n, y.p, y.j, y.k, ?_, y.disc⟩, hyn, ?_⟩
          rotate_left
          · rw [pre_succ, Rnd.bind_run, Rnd.draw_cons]
            rfl
        obtain ⟨x, hxn, hp⟩ := hp
        obtain ⟨st', hh, g1, g2, g3⟩ := hfin x hxn []
        refine ⟨2, st', x, hh, ?_, g2, g3⟩
        rw [hstep, pre_succ, Rnd.bind_of_ok (h3 _), hside, Rnd.bind_of_ok hp, g1]
  rw [hev, select_set (fun b => b.1 = true) _ hnn (le_of_eq hsum)]
  congr 1
  obtain ⟨t1, t2⟩ := total_widths (m1 := m1) (m0 := m0) (ph := par.phys m.n m.e) (w := par.w) hJ hj hf
  obtain ⟨nt, hnt, hj0, hj1, hc⟩ := compoundDecay_ok h'
  rw [← hnt] at t2
  rcases hc with ⟨hz, -⟩ | ⟨ht, -, hpg, hpn⟩
  · rw [t1, t2] at hz
    exact absurd hz hpos
  rw [t1, t2] at hpn
  have e1 : ((candidates n0 n1 m0 m1 pops).map fun y => if y.1.1 = true then y.2 else 0).sum =
      ((cells 0 m1.ncont pops.jmax1 n1.levels.length).map (popOf pops.n)).sum := by
    unfold candidates
    rw [if_pos hst, List.map_append, List.sum_append, List.map_map, List.map_map, List.sum_eq_zero, zero_add]
    · rfl
    · intro x hx
      obtain ⟨c, _, rfl⟩ := List.mem_map.mp hx
      rfl
  rw [e1, sum_popOf (cells_nodup _ _ _ _), hpn, total_scale, t2]
  · ring
  · intro t ht
    rw [hpn] at ht
    obtain ⟨t', ht', rfl⟩ := List.mem_map.mp ht
    rw [hnt] at ht'
    by_cases ho : nOpen n0 m0 = true
    · rw [if_pos ho] at ht'
      rw [hj1, if_pos ho]
      exact neutronTerms_cells (t := t') ht'
    · rw [if_neg ho] at ht'; cases ht'

namespace LawDemo

/-- A nucleus with one level and its daughter. -/
noncomputable def n0 : Nuc ℝ := ⟨50, 132, [⟨0, 0, 1, 0, []⟩], 1, true, 1⟩
noncomputable def n1 : Nuc ℝ := ⟨50, 131, [⟨0, 1, 1, 0, []⟩], 1, false, 0⟩
noncomputable def m0 : Mesh ℝ := ⟨3, 2, excOf 1 2 3⟩
noncomputable def m1 : Mesh ℝ := ⟨2, 1, excOf 1 1 2⟩

/-- All coefficients and densities one, s and p waves. -/
noncomputable def ph : Phys ℝ := ⟨fun _ _ => 1, fun _ _ => 1, fun _ _ _ => 1, fun _ _ _ => 1, fun _ => 1, fun _ _ => 1, fun _ => 1, fun _ _ => 1⟩

theorem ph_nonneg : PhysNonneg ph := by
  constructor <;> intros <;> exact zero_le_one

theorem fits : Fits n0 n1 1 := by
  refine ⟨.inl rfl, ?_, by decide, ?_⟩
  · intro i l h
    rcases i with _ | i
    · cases h; decide
    · cases h
  · intro i l h
    rcases i with _ | i
    · cases h; exact .inl rfl
    · cases h

theorem e0 : m0.exc 0 = 2 := by norm_num [m0, excOf, binEnergy]
theorem e1 : m1.exc 0 = 1 := by norm_num [m1, excOf, binEnergy]

theorem photon : photonWidth 2 1 n0 n1 m0 m1 ph 1 1 = 6 := by
  have h0 : i0 n0 = 0 := by decide
  have hl : n0.levels = [⟨0, 0, 1, 0, []⟩] := rfl
  norm_num [photonWidth, sumStates, strength, photonStrength, h0, hl, m0, ph, List.range'_succ, List.range_succ, PhotonBy, Triangle]

theorem neutron : neutronWidth 2 1 n0 n1 m0 m1 ph 1 1 = 4 := by
  have h0 : i0 n0 = 0 := by decide
  have h1 : i0 n1 = 1 := by decide
  have hl : n1.levels = [⟨0, 1, 1, 0, []⟩] := rfl
  have hs : n0.status = true := rfl
  have hsn : n0.sn = 1 := rfl
  have hc : m1.ncont = 1 := rfl
  norm_num [neutronWidth, sumStates, strength, neutronStrength, h0, h1, hl, hs, hsn, hc, e0, e1, ph, List.range'_succ, List.range_succ,
    NeutronBy, Triangle]

/-- Parameters with these two nuclei. -/
noncomputable def par : Par ℝ := ⟨1, 10, 2, 50, 1 / 50, 0, fun r => r, [n0, n1], fun _ _ => ph⟩

theorem setup0 : setup par.w par.nbin (elmax n0.levels) 2 = .ok m0 := by
  norm_num [setup, firstAbove, par, elmax, n0, m0, binEnergy, List.range_succ, ncontOf, Res.bind_ok]

theorem setup1 : setup par.w par.nbin (elmax n1.levels) (2 - n0.sn) = .ok m1 := by
  norm_num [setup, firstAbove, par, elmax, n0, n1, m1, binEnergy, List.range_succ, ncontOf, Res.bind_ok]

end LawDemo

/-- From a state with spin 1 the level at zero energy is reached with probability one tenth. -/
example : prob (do let pops ← compoundDecay 2 1 LawDemo.n0 LawDemo.n1 LawDemo.m0 LawDemo.m1 LawDemo.ph 1 1 0 0
                   findNext 0 LawDemo.n0 LawDemo.n1 LawDemo.m0 LawDemo.m1 pops 1 1) ⟨0, 1, 0, 0, 0, true⟩ =
    ENNReal.ofReal (1 / 10) := by
  rw [C87_branching 2 (by norm_num) 1 zero_le_one 0 _ _ _ _ _ LawDemo.ph_nonneg 1 1 0 0 (by norm_num) LawDemo.fits (by decide)
    (by rw [LawDemo.photon, LawDemo.neutron]; norm_num) (false, .disc 0) (by simp [InTable, LawDemo.n0])
    ⟨0, 1, 0, 0, 0, true⟩ ⟨⟨0, 0, 1, 0, []⟩, rfl, rfl⟩, LawDemo.photon, LawDemo.neutron]
  congr 1
  have h0 : i0 LawDemo.n0 = 0 := by decide
  have hl : LawDemo.n0.levels = [⟨0, 0, 1, 0, []⟩] := rfl
  norm_num [strength, photonStrength, h0, hl, LawDemo.ph, PhotonBy, Triangle]

/-- A neutron is emitted with probability `4 / 10`. -/
example : stream {ω | ∃ k st' x h, contStep LawDemo.par ⟨[], [], fun _ => 0⟩ ⟨0, 1, 1, 0, 2, false⟩ (pre ω k) = .ok ((st', x), []) ∧
    st'.hs = [] ++ [h] ∧ h.id = Pid.neutron} = ENNReal.ofReal (4 / 10) := by
  have := C87_competition LawDemo.par (by decide) zero_le_one ⟨[], [], fun _ => 0⟩ ⟨0, 1, 1, 0, 2, false⟩ LawDemo.n0 LawDemo.n1
    LawDemo.m0 LawDemo.m1 rfl LawDemo.setup0 rfl rfl LawDemo.setup1 (by decide) (by simp [LawDemo.n1]) (by decide) (by decide)
    LawDemo.ph_nonneg LawDemo.fits (by decide) (by
      show photonWidth 2 1 _ _ _ _ LawDemo.ph 1 1 + neutronWidth 2 1 _ _ _ _ LawDemo.ph 1 1 ≠ 0
      rw [LawDemo.photon, LawDemo.neutron]; norm_num)
  refine Eq.trans this ?_
  show ENNReal.ofReal (neutronWidth 2 1 _ _ _ _ LawDemo.ph 1 1 / (photonWidth 2 1 _ _ _ _ LawDemo.ph 1 1 +
    neutronWidth 2 1 _ _ _ _ LawDemo.ph 1 1)) = _
  rw [LawDemo.photon, LawDemo.neutron]
  norm_num

end CGMF.Props

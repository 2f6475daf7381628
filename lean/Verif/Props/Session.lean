import Verif.Proofs.SessionEvent

/-!
# C128: fissions made by one object
-/

namespace CGMF.Props

open MeasureTheory CGMF.Law CGMF.Frag CGMF.Pre

section

variable {K : Type} [Field K] [LinearOrder K] [FloorRing K] [IsStrictOrderedRing K] {M : Type}

theorem construct_nucleus {mass : Int → Int → Res K} {en : K} {sf : Bool} {c0 c : Comp K} {n : Int} {left : Rnd K K}
    {build : Comp K → Rnd K (Tab K × Env K M)} {s s' : List K} {y : Tab K × Env K M}
    (h : construct mass en sf c0 n left build s = .ok ((c, y), s')) : c.ac = c0.ac - if sf then 0 else n := by
  unfold construct at h
  obtain ⟨ex, s1, _, h⟩ := Rnd.bind_ok.mp h
  obtain ⟨c', s2, h2, h⟩ := Rnd.bind_ok.mp h
  obtain ⟨b, s3, _, h⟩ := Rnd.bind_ok.mp h
  obtain ⟨h, -⟩ := Rnd.pure_ok.mp h
  have e : c = c' := (congrArg Prod.fst h).symm
  obtain ⟨_, z2, z3⟩ := C51_nucleus mass en sf c0 c' n ex (Rnd.lift_ok.mp h2).1
  rw [e]
  cases sf with
  | true => rw [z2 rfl]; simp
  | false => rw [(z3 rfl).1]; simp

theorem event_mass {amu : K} {mass : Int → Int → Res K} {en : K} {sf : Bool} {c0 : Comp K} {n : Int} {left : Rnd K K}
    {build : Comp K → Rnd K (Tab K × Env K M)} {fuel j : Nat} {a0 : Int} {s s' : List K} {e : Comp K × Frags K M}
    (h : event amu (construct mass en sf c0 n left build) fuel a0 j s = .ok (e, s')) :
    e.2.p.al + e.2.p.ah = c0.ac - if sf then 0 else n := by
  obtain ⟨t, v, ⟨_, _, h1⟩, ⟨_, _, h2⟩, _⟩ := event_ok j h
  obtain ⟨⟨_, _, h7⟩, _⟩ := sample_ok h2
  obtain ⟨iA, iZ, z, _, _, h8⟩ := pair_ok h7
  obtain ⟨a1, _, _⟩ := assign_sum e.1.ac e.1.zc iA iZ ⌊z + 1 / 2⌋
  rw [← h8] at a1
  rw [a1, construct_nucleus h1]

/-- **C128.** All fissions of one object have the same number of pre-fission neutrons: there is a number `n`, the one drawn by the
constructor, such that the fragments of every fission together have `n` nucleons fewer than the nucleus at the start (for
spontaneous fission none). -/
theorem C128_same_number (amu : K) (mass : Int → Int → Res K) (en : K) (sf : Bool) (c0 : Comp K) (draw : Rnd K (Int × Bool))
    (left : Int × Bool → Rnd K K) (build : Int × Bool → Comp K → Rnd K (Tab K × Env K M)) (fuel : Nat) (a0 : Int) (N : Nat) (s s' : List K)
    (es : List (Comp K × Frags K M)) (h : session amu draw (yieldsFor mass en sf c0 left build) fuel a0 N s = .ok (es, s')) :
    es.length = N ∧ ∃ n b s1, draw s = .ok ((n, b), s1) ∧ ∀ e ∈ es, e.2.p.al + e.2.p.ah = c0.ac - if sf then 0 else n := by
  obtain ⟨k, s1, h0, h⟩ := Rnd.bind_ok.mp h
  obtain ⟨hl, he⟩ := generate_ok N h
  refine ⟨hl, k.1, k.2, s1, h0, fun e hm => ?_⟩
  obtain ⟨_, _, h1⟩ := he e hm
  exact event_mass h1

end

/-- **C128.** The choices of the constructor: `n` pre-fission neutrons with the multi-chance probability; the first of them is a
pre-equilibrium neutron with probability `f` (zero if `f` is negative), independently of `n`. -/
theorem C128_start {m : Multi ℝ} {N : Nat} {P : Nat → ℝ} (h : Chances m N P) {f : ℝ} (hf : f ≤ 1) (n : Nat) (hn : n < N) :
    prob (start m f) (n, true) = (if n = 0 then 0 else chance N P n * ENNReal.ofReal (max f 0)) ∧
      prob (start m f) (n, false) = chance N P n * (if n = 0 then 1 else ENNReal.ofReal (1 - max f 0)) := by
  rw [prob_start h hf, prob_start h hf, if_pos hn, if_pos hn]
  by_cases h0 : n = 0 <;> simp [h0]

section

variable {M : Type} {amu : ℝ} {fuel : Nat} {a0 : Int} {κ : Type} [Countable κ] {draw : Rnd ℝ κ} {con : κ → Rnd ℝ (Comp ℝ × Tab ℝ × Env ℝ M)}

/-- **C128.** With an object for each fission the fissions are independent: the probability that the first lies in `A₁`, the second in
`A₂`, ... is the product of the probabilities of a single fission, each the mixture over the choices of the object. -/
theorem C128_independent (hl : Local draw) (hm : Meas draw) (h0 : ∀ k, Local (event amu (con k) fuel a0 fuel))
    (As : List (Set (Comp ℝ × Frags ℝ M))) (h : ∀ k, ∀ A ∈ As, Observable (event amu (con k) fuel a0 fuel) A) :
    probIn (separate amu draw con fuel a0 As.length) (AllIn As) =
      (As.map fun A => ∑' k, prob draw k * probIn (event amu (con k) fuel a0 fuel) A).prod :=
  (separate_law hl hm As h0 h).2

/-- **C128.** With one object the probability is the mixture of the products: fissions are independent given the choices of the
object only. -/
theorem C128_one_object_partial (hl : Local draw) (hm : Meas draw) (As : List (Set (Comp ℝ × Frags ℝ M)))
    (h : ∀ k, ∀ A ∈ As, Observable (event amu (con k) fuel a0 fuel) A) :
    probIn (session amu draw con fuel a0 As.length) (AllIn As) =
      ∑' k, prob draw k * (As.map (probIn (event amu (con k) fuel a0 fuel))).prod :=
  (session_law hl hm As h).2

/-- **C128.** Each fission by itself has the same law in both cases, when a fission ends with probability one whatever the choices. -/
theorem C128_each (hl : Local draw) (hm : Meas draw) (A : Set (Comp ℝ × Frags ℝ M))
    (h : ∀ k, Observable (event amu (con k) fuel a0 fuel) A) (hu : ∀ k, Observable (event amu (con k) fuel a0 fuel) Set.univ)
    (h1 : ∀ k, probIn (event amu (con k) fuel a0 fuel) Set.univ = 1) (i j : Nat) :
    probIn (session amu draw con fuel a0 (i + 1 + j)) (AllIn (List.replicate i Set.univ ++ A :: List.replicate j Set.univ)) =
      ∑' k, prob draw k * probIn (event amu (con k) fuel a0 fuel) A := by
  have := C128_one_object_partial (amu := amu) (fuel := fuel) (a0 := a0) (con := con) hl hm
    (List.replicate i Set.univ ++ A :: List.replicate j Set.univ) (fun k B hB => by
      rcases List.mem_append.mp hB with hB | hB
      · obtain rfl := (List.mem_replicate.mp hB).2
        exact hu k
      · rcases List.mem_cons.mp hB with rfl | hB
        · exact h k
        · obtain rfl := (List.mem_replicate.mp hB).2
          exact hu k)
  rw [show (List.replicate i (Set.univ : Set (Comp ℝ × Frags ℝ M)) ++ A :: List.replicate j Set.univ).length = i + 1 + j by
    simp; omega] at this
  rw [this]
  refine tsum_congr fun k => ?_
  simp [h1]

end

section

variable {M : Type} {amu : ℝ} {fuel : Nat} {a0 : Int} {mass : Int → Int → Res ℝ} {en : ℝ} {c0 : Comp ℝ} {left : Int × Bool → Rnd ℝ ℝ}
  {build : Int × Bool → Comp ℝ → Rnd ℝ (Tab ℝ × Env ℝ M)} {m : Multi ℝ} {N : Nat} {P : Nat → ℝ} {f : ℝ}

theorem mass_other {k : Int × Bool} {A : Int} (h : A ≠ c0.ac - k.1) :
    probIn (event amu (yieldsFor mass en false c0 left build k) fuel a0 fuel) (OfMass A) = 0 := by
  unfold probIn
  rw [show {ω : ℕ → ℝ | ∃ n a, event amu (yieldsFor mass en false c0 left build k) fuel a0 fuel (pre ω n) = .ok (a, []) ∧ a ∈ OfMass A} = ∅ by
    ext ω
    simp only [Set.mem_ofPred_eq, Set.mem_empty_iff_false, iff_false, not_exists, not_and]
    intro n a hs ha
    have := event_mass hs
    rw [show a.2.p.al + a.2.p.ah = A from ha] at this
    exact h (by simpa using this)]
  exact measure_empty

theorem mass_same {k : Int × Bool} :
    probIn (event amu (yieldsFor mass en false c0 left build k) fuel a0 fuel) (OfMass (c0.ac - k.1)) =
      probIn (event amu (yieldsFor mass en false c0 left build k) fuel a0 fuel) Set.univ := by
  unfold probIn
  congr 1
  ext ω
  simp only [Set.mem_ofPred_eq, Set.mem_univ, and_true]
  refine ⟨fun ⟨n, a, h, _⟩ => ⟨n, a, h⟩, fun ⟨n, a, h⟩ => ⟨n, a, h, ?_⟩⟩
  have := event_mass h
  show a.2.p.al + a.2.p.ah = _
  simpa using this

/-- **C128** is false for a yields file: if fission after `n₁` and after `n₂` pre-fission neutrons are both possible, a file whose first
fission comes after `n₁` and whose second after `n₂` neutrons has probability zero, though independent fissions would give a positive
one. -/
theorem C128_refuted (h : Chances m N P) {n1 n2 : Nat} (h12 : n1 ≠ n2)
    (hobs : ∀ k A, Observable (event amu (yieldsFor mass en false c0 left build k) fuel a0 fuel) (OfMass A))
    {b1 b2 : Bool} (p1 : prob (start m f) (n1, b1) ≠ 0) (p2 : prob (start m f) (n2, b2) ≠ 0)
    (e1 : probIn (event amu (yieldsFor mass en false c0 left build (n1, b1)) fuel a0 fuel) Set.univ ≠ 0)
    (e2 : probIn (event amu (yieldsFor mass en false c0 left build (n2, b2)) fuel a0 fuel) Set.univ ≠ 0) :
    probIn (session amu (start m f) (yieldsFor mass en false c0 left build) fuel a0 2) (AllIn [OfMass (c0.ac - n1), OfMass (c0.ac - n2)]) = 0 ∧
      0 < probIn (separate amu (start m f) (yieldsFor mass en false c0 left build) fuel a0 2)
        (AllIn [OfMass (c0.ac - n1), OfMass (c0.ac - n2)]) := by
  obtain ⟨hl, hm⟩ := reg_start m N h.size f
  constructor
  · unfold probIn
    rw [show {ω : ℕ → ℝ | ∃ n a, session amu (start m f) (yieldsFor mass en false c0 left build) fuel a0 2 (pre ω n) = .ok (a, []) ∧
        a ∈ AllIn [OfMass (c0.ac - n1), OfMass (c0.ac - n2)]} = ∅ by
      ext ω
      simp only [Set.mem_ofPred_eq, Set.mem_empty_iff_false, iff_false, not_exists, not_and]
      intro n es hs hes
      obtain ⟨-, i, b, s1, -, hall⟩ := C128_same_number _ _ _ _ _ _ _ _ _ _ _ _ _ _ hs
      rcases hes with _ | ⟨ha, _ | ⟨hb, -⟩⟩
      have h1 := hall _ List.mem_cons_self
      have h2 := hall _ (List.mem_cons_of_mem _ List.mem_cons_self)
      simp only [OfMass, Set.mem_ofPred_eq] at ha hb
      simp only [Bool.false_eq_true, if_false] at h1 h2
      omega]
    exact measure_empty
  · have := C128_independent (amu := amu) (fuel := fuel) (a0 := a0) (con := yieldsFor mass en false c0 left build) hl hm
      (fun k => (hobs k 0).loc) [OfMass (c0.ac - n1), OfMass (c0.ac - n2)] (fun k A hA => by
        simp only [List.mem_cons, List.not_mem_nil, or_false] at hA
        rcases hA with rfl | rfl <;> exact hobs k _)
    rw [show [OfMass (M := M) (c0.ac - n1), OfMass (c0.ac - n2)].length = 2 from rfl] at this
    rw [this, pos_iff_ne_zero]
    simp only [List.map_cons, List.map_nil, List.prod_cons, List.prod_nil, mul_one]
    refine mul_ne_zero ?_ ?_
    · intro h0
      rw [ENNReal.tsum_eq_zero] at h0
      have := h0 (n1, b1)
      rw [mass_same (k := ((n1 : Int), b1))] at this
      exact mul_ne_zero p1 e1 this
    · intro h0
      rw [ENNReal.tsum_eq_zero] at h0
      have := h0 (n2, b2)
      rw [mass_same (k := ((n2 : Int), b2))] at this
      exact mul_ne_zero p2 e2 this

theorem sum_mass (h : Chances m N P) (hf : f ≤ 1) {n : Nat} (hn : n < N) (g : Int × Bool → ENNReal)
    (h1 : ∀ b, g (n, b) = 1) (h0 : ∀ k, k.1 ≠ (n : Int) → g k = 0) : ∑' k, prob (start m f) k * g k = chance N P n := by
  rw [tsum_eq_sum (s := {((n : Int), true), ((n : Int), false)}), Finset.sum_pair (by simp), h1, h1, mul_one, mul_one, prob_start_both h hf hn]
  rintro ⟨i, b⟩ hk
  rw [h0, mul_zero]
  rintro rfl
  cases b <;> simp at hk

/-- **C128.** When fissions end with probability one, all `k + 1` fissions of a yields file come after `n` pre-fission neutrons with
probability `Pₙ` however many they are; independent fissions would give the power. -/
theorem C128_all_alike (h : Chances m N P) (hf : f ≤ 1) {n : Nat} (hn : n < N)
    (hobs : ∀ k A, Observable (event amu (yieldsFor mass en false c0 left build k) fuel a0 fuel) (OfMass A))
    (h1 : ∀ b, probIn (event amu (yieldsFor mass en false c0 left build (n, b)) fuel a0 fuel) Set.univ = 1) (k : Nat) :
    probIn (session amu (start m f) (yieldsFor mass en false c0 left build) fuel a0 (k + 1))
        (AllIn (List.replicate (k + 1) (OfMass (c0.ac - n)))) = chance N P n ∧
      probIn (separate amu (start m f) (yieldsFor mass en false c0 left build) fuel a0 (k + 1))
        (AllIn (List.replicate (k + 1) (OfMass (c0.ac - n)))) = chance N P n ^ (k + 1) := by
  obtain ⟨hl, hm⟩ := reg_start m N h.size f
  have hA : ∀ i, ∀ A ∈ List.replicate (k + 1) (OfMass (M := M) (c0.ac - n)),
      Observable (event amu (yieldsFor mass en false c0 left build i) fuel a0 fuel) A := fun i A hA => by
    rw [(List.mem_replicate.mp hA).2]
    exact hobs i _
  constructor
  · have := C128_one_object_partial (amu := amu) (fuel := fuel) (a0 := a0) (con := yieldsFor mass en false c0 left build) hl hm _ hA
    rw [List.length_replicate] at this
    rw [this]
    refine sum_mass h hf hn _ (fun b => ?_) fun i hi => ?_
    · have e := mass_same (amu := amu) (fuel := fuel) (a0 := a0) (mass := mass) (en := en) (c0 := c0) (left := left) (build := build)
        (k := ((n : Int), b))
      rw [List.map_replicate, List.prod_replicate]
      rw [show probIn (event amu (yieldsFor mass en false c0 left build ((n : Int), b)) fuel a0 fuel) (OfMass (c0.ac - n)) = 1 from
        e.trans (h1 b), one_pow]
    · rw [List.map_replicate, List.prod_replicate, mass_other (by omega), zero_pow (by omega)]
  · have := C128_independent (amu := amu) (fuel := fuel) (a0 := a0) (con := yieldsFor mass en false c0 left build) hl hm
      (fun i => (hobs i 0).loc) _ hA
    rw [List.length_replicate] at this
    rw [this, List.map_replicate, List.prod_replicate]
    congr 1
    refine sum_mass h hf hn _ (fun b => ?_) fun i hi => mass_other (by omega)
    exact (mass_same (k := ((n : Int), b))).trans (h1 b)

end

/-! ### A concrete case: four fifths of the fissions without, one fifth with one pre-fission neutron -/

/-- Two masses, a fixed total kinetic energy, equal sharing of the excitation energy. -/
noncomputable def c128Env : Env ℝ Unit where
  mass := fun _ => .ok 0
  mtab := fun _ _ => .ok 0
  ldp := fun _ _ => .ok 10
  tol := 1 / 100
  opt := .rt fun _ => 1
  exp := Real.exp
  nj := 50
  b2 := fun _ _ _ => .ok 12
  tke := fun _ => pure 170
  boost := fun _ _ _ => pure ()

noncomputable def c128Yields : Int × Bool → Rnd ℝ (Comp ℝ × Tab ℝ × Env ℝ Unit) :=
  yieldsFor (fun _ _ => .ok 200) 0 false ⟨0, 3, 200, 0, 0⟩ (fun _ => pure 0) fun _ _ => pure (lawTab, c128Env)

noncomputable def c128Comp (n : Int) : Comp ℝ := ⟨0, 3 - n, 200, -200 + 200 + 0, 0 - (-200 + 200 + 0)⟩

theorem c128_eq (k : Int × Bool) : c128Yields k = ((pure () : Rnd ℝ Unit) >>= fun _ => pure (c128Comp k.1, lawTab, c128Env)) := rfl

theorem c128_tame (n : Int) (a0 : Int) : Tame c128Env lawTab a0 (c128Comp n) where
  regular := ⟨rfl, ⟨_, rfl⟩, fun _ => PM.some measurable_const, fun _ _ => PM.some measurable_const⟩
  boost := fun p => ⟨Set.univ, fun t => local_pure _, fun k => by
      have : {x : ℝ × (ℕ → ℝ) | ∃ m, c128Env.boost x.1 p (a0 - (c128Comp n).ac) (pre x.2 k) = .ok (m, [])} = if k = 0 then Set.univ else ∅ := by
        ext x
        show (∃ m, (pure () : Rnd ℝ Unit) (pre x.2 k) = .ok (m, [])) ↔ _
        simp only [Rnd.pure_ok]
        split
        · rename_i hk
          subst hk
          simp [pre]
        · rename_i hk
          simp only [Set.mem_empty_iff_false, iff_false, not_exists, not_and]
          intro m _ h
          have := congrArg List.length h
          simp [pre] at this
          exact hk this
      rw [this]
      split
      · exact MeasurableSet.univ
      · exact MeasurableSet.empty, fun t _ => by
      classical
      exact (probIn_pure () Set.univ).trans (if_pos (Set.mem_univ _)), fun t h => absurd (Set.mem_univ t) h⟩
  tke := fun a => ⟨local_pure _, fun n => (JM.pure (γ := Unit) (u := fun _ => (170 : ℝ)) measurable_const).fix () n⟩
  dZ := by norm_num [lawTab]
  masses := by norm_num [lawTab]

theorem c128_obs (amu : ℝ) (fuel : Nat) (a0 : Int) (k : Int × Bool) (A : Int) :
    Observable (event amu (c128Yields k) fuel a0 fuel) (OfMass A) := by
  rw [c128_eq]
  refine observable_event (ι := Unit) (local_pure _) (meas_pure _) _ (fun _ => c128_tame k.1 a0) ?_ fuel
  have : Measurable fun e : Comp ℝ × Frags ℝ Unit => e.2.p := (measurable_fst.comp measurable_shown).comp measurable_snd
  exact this (MeasurableSpace.measurableSet_top (s := {p : Pair | p.al + p.ah = A}))

theorem c128_shared (p : Pair) (fuel : Nat) : Shared c128Env (fuel + 1) p 30 (15, 15) 12 12 := by
  refine ⟨?_, rfl, rfl, by norm_num, by norm_num⟩
  show shareRT (fun _ => .ok 10) (fun _ => .ok 10) 1 30 (1 / 100) (fuel + 1) = _
  unfold shareRT
  show shareLoop _ _ _ _ _ (fuel + 1) 10 10 = _
  rw [shareLoop]
  norm_num

theorem c128_pick : probIn (pickAZ lawTab) Set.univ = 1 := by
  obtain ⟨hl, hm⟩ := reg_pickAZ lawTab (by norm_num [lawTab]) (by norm_num [lawTab])
  refine le_antisymm MeasureTheory.prob_le_one ?_
  rw [total_countable hl hm, ← C85_ends lawTab_yields, ← Finset.sum_product']
  rw [← Finset.sum_image (s := Finset.range 2 ×ˢ Finset.range 3) (g := fun x : Nat × Nat => (lawTab.amin + (x.1 : Int), -lawTab.dZ + (x.2 : Int)))
    (f := fun a => prob (pickAZ lawTab) a)]
  · exact ENNReal.sum_le_tsum _
  · rintro ⟨a, b⟩ _ ⟨a', b'⟩ _ h
    simp only [Prod.mk.injEq, add_right_inj, Nat.cast_inj] at h
    exact Prod.ext h.1 h.2

theorem c128_pair (ac zc : Int) : probIn (pair lawTab ac zc) Set.univ = 1 := by
  refine le_antisymm MeasureTheory.prob_le_one ?_
  rw [← c128_pick]
  refine measure_mono ?_
  rintro ω ⟨n, q, h, -⟩
  obtain ⟨_, _, _, _, v, _, _, hv, _⟩ := pickAZ_ok lawTab _ _ _ _ le_rfl h
  rw [readAt_ok_iff] at hv
  have hlt : q.1.toNat < 3 := by
    by_contra hc
    rw [List.getElem?_eq_none (by simp [lawTab]; omega)] at hv
    exact absurd hv.2 (by simp)
  obtain ⟨z, hz⟩ : ∃ z, readAt lawTab.z0 q.1 = .ok z := by
    refine ⟨0, readAt_ok_iff.mpr ⟨hv.1, ?_⟩⟩
    show [(0 : ℝ), 0, 0][q.1.toNat]? = some 0
    interval_cases q.1.toNat <;> rfl
  exact ⟨n, _, Rnd.bind_ok.mpr ⟨q, [], h, Rnd.bind_ok.mpr ⟨z, [], Rnd.lift_ok.mpr ⟨hz, rfl⟩, rfl⟩⟩, trivial⟩

theorem c128_share {p : Pair} {fuel : Nat} {txe : ℝ} {u : ℝ × ℝ} (h : share c128Env.ldp c128Env.tol c128Env.opt fuel p txe = .ok u) : u.1 = u.2 := by
  change shareRT (fun _ => .ok 10) (fun _ => .ok 10) 1 txe (1 / 100) fuel = _ at h
  unfold shareRT at h
  change shareLoop _ _ _ _ _ fuel 10 10 = _ at h
  cases fuel with
  | zero => cases h
  | succ n =>
    rw [shareLoop] at h
    norm_num at h
    rw [← h]
    ring

theorem c128_kept {amu : ℝ} {fuel : Nat} {a0 n : Int} {s s' : List ℝ} {f : Frags ℝ Unit}
    (h : sample c128Env amu lawTab fuel a0 (c128Comp n) s = .ok (f, s')) : f.x.ul ≠ 0 ∧ f.x.uh ≠ 0 := by
  obtain ⟨_, ⟨_, _, h2⟩, h3, _⟩ := sample_ok h
  obtain ⟨ml, mh, _, _, _, _, h4⟩ := initial_ok h2
  rcases excite_ok h4 with ⟨_, hx⟩ | ⟨_, hs, _⟩
  · exact absurd ⟨by rw [show f.x = _ from hx], by rw [show f.x = _ from hx]⟩ h3
  · have e : f.x.ul = f.x.uh := c128_share hs
    rw [e] at h3 ⊢
    exact ⟨fun h => h3 ⟨h, h⟩, fun h => h3 ⟨h, h⟩⟩

theorem c128_sample (amu : ℝ) (fuel : Nat) (a0 n : Int) : probIn (sample c128Env amu lawTab (fuel + 1) a0 (c128Comp n)) Set.univ = 1 := by
  have htame := c128_tame n a0
  let _ : MeasurableSpace Unit := ⊥
  haveI : Nonempty (ℝ × Exc ℝ × Unit) := ⟨(0, ⟨0, 0, none, 0⟩, ())⟩
  obtain ⟨p1, p2⟩ := reg_pair lawTab (by norm_num [lawTab]) (by norm_num [lawTab]) (c128Comp n).ac (c128Comp n).zc
  have hloop : ∀ p, probIn (tkeLoop c128Env (fuel + 1) a0 (c128Comp n) p (fuel + 1)) Set.univ = 1 := by
    intro p
    classical
    rw [tkeLoop_succ (ml := 0) (mh := 0) rfl rfl]
    have hE : (c128Comp n).mx - 0 - 0 + ((c128Comp n).einc + (c128Comp n).sn) = 200 := by
      norm_num [c128Comp]
    obtain ⟨B, hB⟩ := htame.boost p
    have hu : ∀ t, t ∈ B := by
      intro t
      by_contra hc
      exact hB.no t hc [] ((), []) rfl
    have := after_below (B := B) htame.regular hB (fuel + 1) (E := 200) (q := (c128Comp n).mx - 0 - 0) (loop_any (fuel := fuel + 1) htame p fuel).1
      (loop_any (fuel := fuel + 1) htame p fuel).2 MeasurableSet.univ (t := 170) (by norm_num)
    rw [if_pos (hu _)] at this
    rw [hE]
    refine this.trans ?_
    rw [show (200 - 170 : ℝ) = 30 by norm_num]
    exact excite_ends rfl (by norm_num [c128Env]) (by norm_num) (c128_shared p fuel)
  have hj := jm_discrete fun p => (loop_any (fuel := fuel + 1) htame p (fuel + 1)).2
  have h1 : probIn (pair lawTab (c128Comp n).ac (c128Comp n).zc >>= fun p => tkeLoop c128Env (fuel + 1) a0 (c128Comp n) p (fuel + 1)) Set.univ = 1 :=
    ends_bind p1 (sm_of_meas p2) (fun p => (loop_any htame p (fuel + 1)).1) hj (c128_pair _ _) hloop
  refine le_antisymm MeasureTheory.prob_le_one ?_
  rw [← h1]
  refine measure_mono ?_
  rintro ω ⟨k, r, h, -⟩
  obtain ⟨p, s1, h2, h3⟩ := Rnd.bind_ok.mp h
  exact ⟨k, _, Rnd.bind_ok.mpr ⟨p, s1, h2, Rnd.bind_ok.mpr ⟨r, [], h3, rfl⟩⟩, trivial⟩

theorem c128_ends (amu : ℝ) (fuel : Nat) (a0 : Int) (k : Int × Bool) :
    probIn (event amu (c128Yields k) (fuel + 1) a0 (fuel + 1)) Set.univ = 1 := by
  refine le_antisymm MeasureTheory.prob_le_one ?_
  rw [← c128_sample amu fuel a0 k.1]
  refine measure_mono ?_
  rintro ω ⟨n, f, h, -⟩
  refine ⟨n, (c128Comp k.1, f), ?_, trivial⟩
  rw [c128_eq, event]
  refine Rnd.bind_ok.mpr ⟨(c128Comp k.1, lawTab, c128Env), pre ω n, rfl, Rnd.bind_ok.mpr ⟨f, [], h, ?_⟩⟩
  rw [if_pos (c128_kept h)]
  rfl

theorem c128_chances : Chances (⟨1, [4 / 5, 1 / 5], 4 / 5⟩ : Multi ℝ) 2 (fun i => [4 / 5, 1 / 5].getD i 0) where
  size := rfl
  read := fun i hi => by interval_cases i <;> rfl
  nonneg := fun i hi => by interval_cases i <;> norm_num
  below := fun i hi => by interval_cases i <;> norm_num
  some := by norm_num [Finset.sum_range_succ]

/-- All ten fissions of a file come after one neutron with probability one fifth; with ten objects with probability `(1/5)^10`. -/
example : probIn (session 931 (start (⟨1, [4 / 5, 1 / 5], 4 / 5⟩ : Multi ℝ) (1 / 3)) c128Yields 5 3 10)
      (AllIn (List.replicate 10 (OfMass 2))) = ENNReal.ofReal (1 / 5) ∧
    probIn (separate 931 (start (⟨1, [4 / 5, 1 / 5], 4 / 5⟩ : Multi ℝ) (1 / 3)) c128Yields 5 3 10)
      (AllIn (List.replicate 10 (OfMass 2))) = ENNReal.ofReal (1 / 5) ^ 10 := by
  have h := C128_all_alike (amu := 931) (fuel := 5) (a0 := 3) c128_chances (f := 1 / 3) (by norm_num) (n := 1) (by norm_num)
    (fun k A => c128_obs 931 5 3 k A) (fun b => c128_ends 931 4 3 (1, b)) 9
  have e : chance 2 (fun i => [4 / 5, 1 / 5].getD i 0) 1 = ENNReal.ofReal (1 / 5) := by
    unfold chance
    congr 1
    norm_num [Finset.sum_range_succ]
  rw [e] at h
  exact h

/-- A file with one fission of each kind has probability zero. -/
example : probIn (session 931 (start (⟨1, [4 / 5, 1 / 5], 4 / 5⟩ : Multi ℝ) (1 / 3)) c128Yields 5 3 2) (AllIn [OfMass 3, OfMass 2]) = 0 ∧
    0 < probIn (separate 931 (start (⟨1, [4 / 5, 1 / 5], 4 / 5⟩ : Multi ℝ) (1 / 3)) c128Yields 5 3 2) (AllIn [OfMass 3, OfMass 2]) := by
  have h := C128_refuted (amu := 931) (fuel := 5) (a0 := 3) c128_chances (f := 1 / 3) (n1 := 0) (n2 := 1) (by norm_num)
    (fun k A => c128_obs 931 5 3 k A) (b1 := false) (b2 := true)
    (by
      rw [(C128_start c128_chances (by norm_num) 0 (by norm_num)).2]
      norm_num [chance, Finset.sum_range_succ])
    (by
      rw [(C128_start c128_chances (by norm_num) 1 (by norm_num)).1]
      norm_num [chance, Finset.sum_range_succ])
    (ne_of_eq_of_ne (c128_ends 931 4 3 (0, false)) one_ne_zero)
    (ne_of_eq_of_ne (c128_ends 931 4 3 (1, true)) one_ne_zero)
  exact h

end CGMF.Props

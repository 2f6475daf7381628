import Verif.Proofs.Again
import Verif.Props.Whole
import Verif.Props.Session
import Mathlib.Analysis.SpecificLimits.Basic

/-!
# C127: fragments sampled again
-/

namespace CGMF.Props

open MeasureTheory ProbabilityTheory CGMF.MC CGMF.Kin CGMF.HF CGMF.Law CGMF.Isotropy CGMF.Frag CGMF.Whole

section

variable {κ : Type} [Countable κ] {g : Cfg} {amu : ℝ} {left : Rnd ℝ κ} {con : κ → Pre.Comp ℝ × Tab ℝ × Env ℝ PfnOut} {fuel : Nat} {a0 : Int}
  {sl sh : Nat → ℝ} {st : St ℝ} {A : Set Event}

/-- What follows the sampling of the fragments. -/
theorem fission_law (hl : Local left) (hm : Meas left)
    (hz : ∀ k, Observable (sample (con k).2.2 amu (con k).2.1 fuel a0 (con k).1) {f | f.x.ul = 0 ∨ f.x.uh = 0})
    (hA : ∀ k, NullMeasurableSet {ω | ∃ m x, event g (con k).2.2 amu (con k).2.1 fuel a0 (con k).1 sl sh st (pre ω m) = .ok (x, []) ∧ x ∈ A}
      stream) : ∀ n, NullMeasurableSet (EndsIn (fission g amu left con fuel a0 sl sh st n) A) stream ∧
    stream (EndsIn (fission g amu left con fuel a0 sl sh st n) A) =
      (∑ i ∈ Finset.range n, (∑' k, prob left k * probIn (sample (con k).2.2 amu (con k).2.1 fuel a0 (con k).1)
        {f | f.x.ul = 0 ∨ f.x.uh = 0}) ^ i) *
      ∑' k, prob left k * stream {ω | ∃ m x, event g (con k).2.2 amu (con k).2.1 fuel a0 (con k).1 sl sh st (pre ω m) = .ok (x, []) ∧ x ∈ A}
  | 0 => by
    have : EndsIn (fission g amu left con fuel a0 sl sh st 0) A = ∅ := by
      ext ω
      simp only [EndsIn, Set.mem_ofPred_eq, Set.mem_empty_iff_false, iff_false, not_exists, not_and]
      intro k x h
      cases h
    rw [this]
    simp
  | n + 1 => by
    classical
    obtain ⟨i1, i2⟩ := fission_law hl hm hz hA n
    have e1 : fission g amu left con fuel a0 sl sh st (n + 1) = left >>= fun k =>
        sample (con k).2.2 amu (con k).2.1 fuel a0 (con k).1 >>= fun f =>
        if f.x.ul ≠ 0 ∧ f.x.uh ≠ 0 then
          match f.x.spins with
          | none => Rnd.undef
          | some w => do
            let l ← emit g (lightJob g f w) f.mom.light sl st
            let h ← emit g (heavyJob g f w) f.mom.heavy sh l.1
            pure ⟨f, l.1.hs, l.2, h.1.hs, h.2⟩
        else fission g amu left con fuel a0 sl sh st n := rfl
    have key := fun k => retry_law (hz k) (A := A)
      (fun f => if f.x.ul ≠ 0 ∧ f.x.uh ≠ 0 then
          match f.x.spins with
          | none => Rnd.undef
          | some w => do
            let l ← emit g (lightJob g f w) f.mom.light sl st
            let h ← emit g (heavyJob g f w) f.mom.heavy sh l.1
            pure ⟨f, l.1.hs, l.2, h.1.hs, h.2⟩
        else again)
      (fun f => if f.x.ul ≠ 0 ∧ f.x.uh ≠ 0 then
          match f.x.spins with
          | none => Rnd.undef
          | some w => do
            let l ← emit g (lightJob g f w) f.mom.light sl st
            let h ← emit g (heavyJob g f w) f.mom.heavy sh l.1
            pure ⟨f, l.1.hs, l.2, h.1.hs, h.2⟩
        else fission g amu left con fuel a0 sl sh st n)
      (fission g amu left con fuel a0 sl sh st n)
      (fun f hf => if_neg (by
        have hf : f.x.ul = 0 ∨ f.x.uh = 0 := hf
        tauto))
      (fun f hf => by
        have hf : ¬ (f.x.ul = 0 ∨ f.x.uh = 0) := hf
        have hg : f.x.ul ≠ 0 ∧ f.x.uh ≠ 0 := by tauto
        rw [if_pos hg, if_pos hg])
      (fun f hf s x hx => by
        have hf : f.x.ul = 0 ∨ f.x.uh = 0 := hf
        rw [if_neg (by tauto)] at hx
        cases hx)
      (hA k) i1
    rw [e1, endsIn_bind hl]
    obtain ⟨t1, t2⟩ := then_law hl hm fun k => (key k).1
    refine ⟨t1, t2.trans ?_⟩
    rw [Finset.sum_range_succ', pow_zero, add_mul, one_mul, add_comm]
    simp only [(key _).2, mul_add]
    rw [ENNReal.tsum_add]
    congr 1
    simp only [i2, ← mul_assoc]
    rw [ENNReal.tsum_mul_right, ENNReal.tsum_mul_right, Finset.mul_sum]
    congr 1
    exact Finset.sum_congr rfl fun i _ => by rw [pow_succ, mul_comm]

/-- **C127.**  Sampling again when a fragment has no excitation energy: within `n` passes the event has a property `A` with the probability
that a single pass gives an event with that property, times the sum of the powers of the probability that a pass fails.  In each pass the
nucleus is `con k` with the probability of the choice `k`. -/
theorem C127_again (hl : Local left) (hm : Meas left)
    (hz : ∀ k, Observable (sample (con k).2.2 amu (con k).2.1 fuel a0 (con k).1) {f | f.x.ul = 0 ∨ f.x.uh = 0})
    (hA : ∀ k, NullMeasurableSet {ω | ∃ m x, event g (con k).2.2 amu (con k).2.1 fuel a0 (con k).1 sl sh st (pre ω m) = .ok (x, []) ∧ x ∈ A}
      stream) (n : Nat) :
    stream {ω | ∃ m x, fission g amu left con fuel a0 sl sh st n (pre ω m) = .ok (x, []) ∧ x ∈ A} =
      (∑ i ∈ Finset.range n, (∑' k, prob left k * probIn (sample (con k).2.2 amu (con k).2.1 fuel a0 (con k).1)
        {f | f.x.ul = 0 ∨ f.x.uh = 0}) ^ i) *
      ∑' k, prob left k * stream {ω | ∃ m x, event g (con k).2.2 amu (con k).2.1 fuel a0 (con k).1 sl sh st (pre ω m) = .ok (x, []) ∧ x ∈ A} :=
  (fission_law hl hm hz hA n).2

/-- **C127.**  With no limit on the passes the probability is that of a single pass given that the pass does not fail. -/
theorem C127_limit (hl : Local left) (hm : Meas left)
    (hz : ∀ k, Observable (sample (con k).2.2 amu (con k).2.1 fuel a0 (con k).1) {f | f.x.ul = 0 ∨ f.x.uh = 0})
    (hA : ∀ k, NullMeasurableSet {ω | ∃ m x, event g (con k).2.2 amu (con k).2.1 fuel a0 (con k).1 sl sh st (pre ω m) = .ok (x, []) ∧ x ∈ A}
      stream) :
    Filter.Tendsto (fun n => stream {ω | ∃ m x, fission g amu left con fuel a0 sl sh st n (pre ω m) = .ok (x, []) ∧ x ∈ A}) Filter.atTop
      (nhds ((∑' k, prob left k * stream {ω | ∃ m x, event g (con k).2.2 amu (con k).2.1 fuel a0 (con k).1 sl sh st (pre ω m) =
          .ok (x, []) ∧ x ∈ A}) /
        (1 - ∑' k, prob left k * probIn (sample (con k).2.2 amu (con k).2.1 fuel a0 (con k).1) {f | f.x.ul = 0 ∨ f.x.uh = 0}))) := by
  simp only [C127_again hl hm hz hA]
  rw [ENNReal.div_eq_inv_mul, ← ENNReal.tsum_geometric]
  refine ENNReal.Tendsto.mul_const ENNReal.summable.hasSum.tendsto_sum_nat (.inl ?_)
  rw [ENNReal.tsum_geometric]
  exact ENNReal.inv_ne_zero.mpr (ne_of_lt (lt_of_le_of_lt tsub_le_self ENNReal.one_lt_top))

end

/-- Whether a fragment has no excitation energy can be observed. -/
theorem observable_zero {M : Type} [Nonempty M] {v : Env ℝ M} {T : Tab ℝ} {c : Pre.Comp ℝ} {a0 : Int} (h : Tame v T a0 c) (amu : ℝ)
    (fuel : Nat) : Observable (sample v amu T fuel a0 c) {f | f.x.ul = 0 ∨ f.x.uh = 0} := by
  obtain ⟨h1, h2⟩ := sm_sample (amu := amu) (fuel := fuel) h
  refine ⟨h1, fun k => ?_⟩
  have e : {f : Frags ℝ M | f.x.ul = 0 ∨ f.x.uh = 0} = {f : Frags ℝ M | f.x.ul ≠ 0 ∧ f.x.uh ≠ 0}ᶜ := by
    ext f
    simp only [Set.mem_ofPred_eq, Set.mem_compl_iff]
    tauto
  have := h2 k _ (e ▸ measurable_kept.compl)
  simpa only [outAt_eq, At, Set.mem_ofPred_eq] using this

/-- **C127.**  The events of `C127_event` have a probability, as `C127_again` asks for. -/
theorem C127_seen (g : Cfg) (v : Env ℝ PfnOut) (amu : ℝ) (T : Tab ℝ) (fuel : Nat) (a0 : Int) (c : Pre.Comp ℝ) (p : Pair) (E q m s e0 : ℝ)
    (h : Setting v a0 c p E q m s e0) (hd : 0 ≤ T.dZ) (hAm : T.amin ≤ T.amax) (hl : ∃ x, v.mtab p.zl p.al = .ok x)
    (hh : ∃ x, v.mtab p.zh p.ah = .ok x)
    (J : Int → Nat → ℝ) (hJ : ∀ A k, J A k = if A % 2 = 0 then (k : ℝ) else (k : ℝ) + 1 / 2)
    (i j : Nat) (a b : Int) (S : Set ℝ) (hS : MeasurableSet S) (N : Nat) (ql qh : Ask) (cl ch : List (Nuc ℝ))
    (hf : Fits g v fuel a0 c p E e0 S N i j a b ql qh cl ch) (sl sh : Nat → ℝ) (st : St ℝ) (hts : st.ts.length = N) :
    NullMeasurableSet {ω | ∃ k x, event g v amu T fuel a0 c sl sh st (pre ω k) = .ok (x, []) ∧ x ∈ ({x | x.f.p = p ∧ x.f.tke ∈ S ∧
        x.f.x.spins = some (J p.al i, J p.ah j, a, b) ∧ ql.Shows x.hl x.l ∧ qh.Shows x.hh x.h} : Set Event)} stream := by
  classical
  have hM : Nonempty PfnOut := ⟨⟨[], 0, 0⟩⟩
  set w : ℝ × ℝ × Int × Int := (J p.al i, J p.ah j, a, b) with hw
  have hv := setting_regular h
  obtain ⟨h1, h2, _⟩ := setting_tke h
  obtain ⟨ml, mh, e1, e2, hq⟩ := h.masses
  let mM : MeasurableSpace PfnOut := ⊥
  obtain ⟨r1, r2⟩ := loop_reg hv h.boost fuel h1 h2 e1 e2 fuel
  obtain ⟨p1, p2⟩ := reg_pair T hd hAm c.ac c.zc
  have hn := watch_niceIn hf hS w
  have hproj : Measurable fun y : ℝ × Exc ℝ × PfnOut => (y.1, y.2.1) := measurable_fst.prodMk (measurable_fst.comp measurable_snd)
  have sm := sm_bind r1 r2 (hn.jm.comp hproj)
  have hW : Meas (watcher g v T fuel a0 c p S w i j a b ql qh cl ch) := by
    refine meas_bind p1 p2 fun p' => ?_
    split
    · intro u k
      have := sm k _ MeasurableSet.univ
      have e : At (tkeLoop v fuel a0 c p fuel >>= fun y => ofSets (watch g p S w i j a b ql qh cl ch (y.1, y.2.1))) u k =
          {ω | ∃ b' ∈ (Set.univ : Set Unit),
            outAt (tkeLoop v fuel a0 c p fuel >>= fun y => ofSets (watch g p S w i j a b ql qh cl ch (y.1, y.2.1))) k ω = some b'} := by
        ext ω
        simp only [Set.mem_univ, true_and, Set.mem_ofPred_eq, outAt_eq]
        exact ⟨fun hx => ⟨u, hx⟩, fun ⟨_, hx⟩ => hx⟩
      rw [e]
      exact this
    · exact meas_undef
  refine ⟨⋃ k, At (watcher g v T fuel a0 c p S w i j a b ql qh cl ch) () k, MeasurableSet.iUnion fun k => hW () k, ?_⟩
  refine Filter.eventuallyEq_set.mpr ?_
  have h0 : ∀ᵐ ω ∂stream, Inside ω := stream_inside
  filter_upwards [h0] with ω hω
  simp only [Set.mem_ofPred_eq, Set.mem_iUnion]
  exact exists_congr fun k => watcher_at h hf hS hJ amu T hd hAm hl hh sl sh hts hω k

/-! ## Example -/

namespace WholeDemo

theorem tame (tab : Tab ℝ) (hd : 0 ≤ tab.dZ) (hA : tab.amin ≤ tab.amax) : Tame c109Env tab 237 ⟨94, 237, 200, 0, 0⟩ where
  regular := setting_regular c109_setting
  boost := fun p => ⟨_, c109_setting.boost⟩
  tke := by
    intro a
    by_cases hr : ∃ t s, readAt (List.replicate 300 (170 : ℝ)) (Yld.heavyIdx 237 a) = .ok t ∧
        readAt (List.replicate 300 (10 : ℝ)) (Yld.heavyIdx 237 a) = .ok s
    · obtain ⟨t, s, ht, hs⟩ := hr
      have hp := pairs_tke (List.replicate 300 170) (List.replicate 300 10) 237 1 a t s ht hs
      have ma : Measurable fun r : ℝ × ℝ => (2 * r.1 - 1, 2 * r.2 - 1) := by fun_prop
      exact ⟨local_pairs hp, sm_pairs hp (ma measurable_disc) (measurable_const.add ((measurable_polarValue.comp ma).const_mul s))⟩
    · have hno : ∀ l x, c109Env.tke a l ≠ .ok x := by
        intro l x hx
        obtain ⟨y, _, -, hx⟩ := Rnd.bind_ok.mp hx
        have hx := (Rnd.lift_ok.mp hx).1
        unfold Yld.sampleTKE at hx
        obtain ⟨t, ht, hx⟩ := Res.bind_eq_ok.mp hx
        obtain ⟨s, hs, hx⟩ := Res.bind_eq_ok.mp hx
        exact hr ⟨t, s, ht, hs⟩
      refine ⟨fun l x l' hx => absurd hx (hno _ _), fun k S _ => ?_⟩
      have : {ω : ℕ → ℝ | ∃ x ∈ S, outAt (c109Env.tke a) k ω = some x} = ∅ := by
        ext ω
        simp only [Set.mem_ofPred_eq, Set.mem_empty_iff_false, iff_false, not_exists, not_and]
        intro x _ hx
        exact hno _ _ (outAt_eq.mp hx)
      rw [this]
      exact MeasurableSet.empty
  dZ := hd
  masses := hA

end WholeDemo

/-- The events of zirconium-97 and xenon-140 of the example of `C127_event`, with one nucleus: whatever the number of passes, their
probability is that of one pass times the sum of powers of the probability of a failure. -/
example (T : Set V3) (hT : MeasurableSet T) (tab : Tab ℝ) (hd : 0 ≤ tab.dZ) (hA : tab.amin ≤ tab.amax) (sl sh : Nat → ℝ) (hs : List (Hist ℝ))
    (jm : Nat → Int) (J : Int → Nat → ℝ) (hJ : ∀ A k, J A k = if A % 2 = 0 then (k : ℝ) else (k : ℝ) + 1 / 2) (n : Nat) (Q : Set Event)
    (hQ : Q = {x | x.f.p = c109Pair ∧ x.f.tke ∈ Set.Icc (199 : ℝ) (399 / 2) ∧ x.f.x.spins = some (J 97 0, J 140 0, 1, -1) ∧
        (WholeDemo.photon T).Shows x.hl x.l ∧ WholeDemo.electron.Shows x.hh x.h}) :
    stream {ω | ∃ m x, fission WholeDemo.cfg 931 (pure ()) (fun _ : Unit => (⟨94, 237, 200, 0, 0⟩, tab, c109Env)) 5 237 sl sh
        ⟨hs, List.replicate 100 7, jm⟩ n (pre ω m) = .ok (x, []) ∧ x ∈ Q} =
      (∑ i ∈ Finset.range n, probIn (sample c109Env 931 tab 5 237 ⟨94, 237, 200, 0, 0⟩) {f | f.x.ul = 0 ∨ f.x.uh = 0} ^ i) *
      stream {ω | ∃ m x, event WholeDemo.cfg c109Env 931 tab 5 237 ⟨94, 237, 200, 0, 0⟩ sl sh ⟨hs, List.replicate 100 7, jm⟩ (pre ω m) =
        .ok (x, []) ∧ x ∈ Q} := by
  have : Nonempty PfnOut := ⟨⟨[], 0, 0⟩⟩
  subst hQ
  have := C127_again (g := WholeDemo.cfg) (amu := 931) (left := pure ()) (con := fun _ : Unit => (⟨94, 237, 200, 0, 0⟩, tab, c109Env))
    (fuel := 5) (a0 := 237) (sl := sl) (sh := sh) (st := ⟨hs, List.replicate 100 7, jm⟩)
    (A := {x | x.f.p = c109Pair ∧ x.f.tke ∈ Set.Icc (199 : ℝ) (399 / 2) ∧ x.f.x.spins = some (J 97 0, J 140 0, 1, -1) ∧
        (WholeDemo.photon T).Shows x.hl x.l ∧ WholeDemo.electron.Shows x.hh x.h})
    (local_pure _) (meas_pure _) (fun _ => observable_zero (WholeDemo.tame tab hd hA) 931 5)
    (fun _ => C127_seen WholeDemo.cfg c109Env 931 tab 5 237 ⟨94, 237, 200, 0, 0⟩ c109Pair 200 200 170 10 0 c109_setting hd hA ⟨0, rfl⟩ ⟨0, rfl⟩
      J hJ 0 0 1 (-1) _ measurableSet_Icc 100 (WholeDemo.photon T) WholeDemo.electron [WholeDemo.single 40 97] [WholeDemo.single 54 140]
      (WholeDemo.fits T hT 1 (-1)) sl sh _ (by simp)) n
  rw [this]
  simp [prob_pure_self]

end CGMF.Props

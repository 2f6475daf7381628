import Verif.Spec.Runs
import Verif.Props.Path
import Verif.Proofs.Stale

/-! # Law of several decays in one program -/

namespace CGMF.Law

open MeasureTheory

/-- Sets of sequences on which a program ends after `n` numbers. -/
structure Nice (S : ℕ → Set (ℕ → ℝ)) : Prop where
  meas : ∀ n, MeasurableSet (S n)
  dep : ∀ n ω ω', (∀ i < n, ω i = ω' i) → (ω ∈ S n ↔ ω' ∈ S n)
  one : ∀ ω m n, ω ∈ S m → ω ∈ S n → m = n

/-- One program after the other. -/
def followed (S T : ℕ → Set (ℕ → ℝ)) (n : ℕ) : Set (ℕ → ℝ) := {ω | ∃ a, a ≤ n ∧ ω ∈ S a ∧ shift a ω ∈ T (n - a)}

theorem Nice.followed {S T : ℕ → Set (ℕ → ℝ)} (hS : Nice S) (hT : Nice T) : Nice (followed S T) := by
  refine ⟨fun n => ?_, ?_, ?_⟩
  · have : Law.followed S T n = ⋃ a, ⋃ (_ : a ≤ n), S a ∩ shift a ⁻¹' T (n - a) := by
      ext ω
      simp only [Law.followed, Set.mem_ofPred_eq, Set.mem_iUnion, Set.mem_inter_iff, Set.mem_preimage, exists_prop]
    rw [this]
    exact MeasurableSet.iUnion fun a => MeasurableSet.iUnion fun _ => (hS.meas a).inter (measurable_shift a (hT.meas _))
  · intro n ω ω' h
    refine exists_congr fun a => and_congr_right fun ha => and_congr (hS.dep a ω ω' fun i hi => h i (by omega)) ?_
    exact hT.dep _ _ _ fun i hi => h (a + i) (by omega)
  · rintro ω m n ⟨a, ha, h1, h2⟩ ⟨b, hb, h3, h4⟩
    have := hS.one ω a b h1 h3
    subst this
    have := hT.one _ _ _ h2 h4
    omega

theorem stream_followed {S T : ℕ → Set (ℕ → ℝ)} (hS : Nice S) (hT : Nice T) :
    stream (⋃ n, followed S T n) = stream (⋃ n, S n) * stream (⋃ n, T n) := by
  have e : ⋃ n, followed S T n = ⋃ a, S a ∩ shift a ⁻¹' (⋃ n, T n) := by
    ext ω
    simp only [Set.mem_iUnion, Set.mem_inter_iff, Set.mem_preimage]
    constructor
    · rintro ⟨n, a, -, h1, h2⟩
      exact ⟨a, h1, _, h2⟩
    · rintro ⟨a, h1, n, h2⟩
      exact ⟨a + n, a, by omega, h1, by rw [Nat.add_sub_cancel_left]; exact h2⟩
  have hm : MeasurableSet (⋃ n, T n) := MeasurableSet.iUnion hT.meas
  rw [e, measure_iUnion, measure_iUnion (f := S), ← ENNReal.tsum_mul_right]
  · exact tsum_congr fun a => indep _ hm a _ (hS.meas a) (hS.dep a)
  · intro a b h
    rw [Function.onFun, Set.disjoint_left]
    intro ω h1 h2
    exact h (hS.one ω a b h1 h2)
  · exact hS.meas
  · intro a b h
    rw [Function.onFun, Set.disjoint_left]
    rintro ω ⟨h1, -⟩ ⟨h2, -⟩
    exact h (hS.one ω a b h1 h2)
  · exact fun a => (hS.meas a).inter (measurable_shift a hm)

/-- No program. -/
def idle (n : ℕ) : Set (ℕ → ℝ) := if n = 0 then Set.univ else ∅

theorem nice_idle : Nice idle := by
  refine ⟨fun n => ?_, ?_, ?_⟩
  · unfold idle; split <;> simp
  · intro n ω ω' _
    unfold idle; split <;> simp
  · intro ω m n h1 h2
    unfold idle at h1 h2
    split at h1 <;> split at h2 <;> simp_all

theorem stream_idle : stream (⋃ n, idle n) = 1 := by
  have : ⋃ n, idle n = Set.univ := by
    rw [Set.eq_univ_iff_forall]
    intro ω
    exact Set.mem_iUnion.mpr ⟨0, by simp [idle]⟩
  rw [this, measure_univ]

end CGMF.Law

namespace CGMF.HF

open CGMF.Law CGMF.MC CGMF.Grid CGMF.Props CGMF.Branching MeasureTheory

/-! ## Locality of a decay -/

section
variable {par : Par ℝ}

theorem local_stay (l : Level ℝ) (t : ℝ) : Local (stay par l t) := by
  unfold stay
  split
  · exact local_bind Isotropy.local_draw fun _ => local_pure _
  · exact local_pure _

theorem local_cascadeLoop (c : Nat) (levels : List (Level ℝ)) : ∀ (f i : Nat) (t : ℝ) (st : St ℝ), Local (cascadeLoop par c levels f i t st)
  | 0, _, _, _ => local_more
  | f + 1, i, t, st => by
    rw [cascadeLoop]
    split
    · exact local_pure _
    · refine local_bind (local_get' _) fun l => local_bind (local_stay _ _) fun t' => ?_
      split
      · exact local_pure _
      · refine local_bind Isotropy.local_draw fun r => ?_
        cases pickBranch r l.branches with
        | none => exact local_cascadeLoop c levels f i t' st
        | some b => exact local_bind Isotropy.local_draw fun x => local_bind (Isotropy.local_lift _) fun ts =>
            local_bind (local_get' _) fun l1 => local_bind (local_store _ _ _ _) fun st1 => local_cascadeLoop c levels f b.fstate t' st1

/-- More passes allowed, same result. -/
theorem cascadeLoop_more (c : Nat) (levels : List (Level ℝ)) : ∀ (f i : Nat) (t : ℝ) (st : St ℝ) (s : List ℝ) (x : Nat × St ℝ) (s' : List ℝ),
    cascadeLoop par c levels f i t st s = .ok (x, s') → cascadeLoop par c levels (f + 1) i t st s = .ok (x, s') := by
  intro f
  induction f with
  | zero => intro i t st s x s' h; cases h
  | succ f ih =>
    intro i t st s x s' h
    rw [cascadeLoop] at h ⊢
    split at h
    · next hi => rw [if_pos hi]; exact h
    · next hi =>
      rw [if_neg hi]
      obtain ⟨l, s1, h1, h⟩ := Rnd.bind_ok.mp h
      rw [Rnd.bind_of_ok h1]
      obtain ⟨t', s2, h2, h⟩ := Rnd.bind_ok.mp h
      rw [Rnd.bind_of_ok h2]
      split at h
      · next hw => rw [if_pos hw]; exact h
      · next hw =>
        rw [if_neg hw]
        obtain ⟨r, s3, h3, h⟩ := Rnd.bind_ok.mp h
        rw [Rnd.bind_of_ok h3]
        generalize hc : pickBranch r l.branches = o at h ⊢
        cases o with
        | none => exact ih _ _ _ _ _ _ h
        | some b =>
          simp only at h ⊢
          obtain ⟨y, s4, h4, h⟩ := Rnd.bind_ok.mp h
          rw [Rnd.bind_of_ok h4]
          obtain ⟨ts, s5, h5, h⟩ := Rnd.bind_ok.mp h
          rw [Rnd.bind_of_ok h5]
          obtain ⟨l1, s6, h6, h⟩ := Rnd.bind_ok.mp h
          rw [Rnd.bind_of_ok h6]
          obtain ⟨st1, s7, h7, h⟩ := Rnd.bind_ok.mp h
          rw [Rnd.bind_of_ok h7]
          exact ih _ _ _ _ _ _ h

theorem cascadeLoop_le {c : Nat} {levels : List (Level ℝ)} {f g i : Nat} {t : ℝ} {st : St ℝ} {s : List ℝ} {x : Nat × St ℝ} {s' : List ℝ}
    (h : cascadeLoop par c levels f i t st s = .ok (x, s')) (hfg : f ≤ g) : cascadeLoop par c levels g i t st s = .ok (x, s') := by
  obtain ⟨d, rfl⟩ := Nat.exists_eq_add_of_le hfg
  clear hfg
  induction d with
  | zero => exact h
  | succ d ih => exact cascadeLoop_more c levels _ i t st s x s' ih

theorem local_cascade (c i : Nat) (st : St ℝ) : Local (cascade par c i st) := by
  intro s a s' h
  unfold cascade at h ⊢
  cases hn : par.chain[c]? with
  | none => rw [hn] at h; cases h
  | some n =>
    rw [hn] at h
    simp only at h ⊢
    obtain ⟨p, hp, ht⟩ := local_cascadeLoop c n.levels _ _ _ _ s a s' h
    refine ⟨p, hp, fun t => ?_⟩
    have h0 := ht []
    rw [List.append_nil, cascadeLoop_fuel _ (p.length + 1) i 0 st p (by rw [hp]; simp) (by omega)] at h0
    obtain ⟨p', hp', ht'⟩ := local_cascadeLoop c n.levels _ _ _ _ p a [] h0
    rw [List.append_nil] at hp'
    subst hp'
    exact cascadeLoop_le (ht' t) (by simp)

theorem local_marker (c f : Nat) (st : St ℝ) : Local (marker par c f st) := by
  unfold marker
  refine local_bind (local_get' _) fun _ => local_bind (local_get' _) fun _ => ?_
  split
  · exact local_undef
  · exact local_pure _

theorem local_history (st : St ℝ) (m : MCPoint ℝ) : Local (historyLoop par st m) := by
  unfold historyLoop
  refine local_bind (local_contLoop _ _ _) fun r => local_bind ?_ fun f => local_marker _ _ _
  unfold finish
  split
  · exact local_cascade _ _ _
  · exact local_pure _

theorem local_decay (st : St ℝ) (E : ℝ) (j p : Int) : Local (decay par st E j p) := by
  unfold decay
  refine local_bind (local_get' _) fun n0 => local_bind (Isotropy.local_lift _) fun m0 => ?_
  split
  · unfold discStart
    exact local_bind (local_cascade _ _ _) fun _ => local_marker _ _ _
  · unfold contStart
    split
    · exact local_stop
    · exact local_history _ _

end

theorem local_run (b : Job ℝ) (st : St ℝ) (stale : Nat → ℝ) : Local (b.run st stale) := by
  unfold Job.run fragment
  exact local_bind (Isotropy.local_lift _) fun _ => local_bind (Isotropy.local_lift _) fun _ => local_decay _ _ _ _

/-! ## One decay -/

/-- Sequences with which the continuum part is the pattern and the rest the cascade. -/
def bothParts (f : Rnd ℝ Unit) (levels : List (Level ℝ)) (q : List (Nat × Bool)) (k : ℕ) : Set (ℕ → ℝ) :=
  {ω | ∃ a, ω ∈ At f () a ∧ shift a ω ∈ Follows levels q ∧ k = a + cost levels q}

/-- The cascade alone. -/
def onlyCascade (levels : List (Level ℝ)) (q : List (Nat × Bool)) (k : ℕ) : Set (ℕ → ℝ) :=
  if k = cost levels q then Follows levels q else ∅

theorem nice_onlyCascade {levels : List (Level ℝ)} (h : Proper levels) (q : List (Nat × Bool)) : Nice (onlyCascade levels q) := by
  refine ⟨fun n => ?_, ?_, ?_⟩
  · unfold onlyCascade
    split
    · exact measurable_follows h q
    · exact MeasurableSet.empty
  · intro n ω ω' hd
    unfold onlyCascade
    split
    · next hk => subst hk; exact follows_dep levels q ω ω' hd
    · exact Iff.rfl
  · intro ω m n h1 h2
    unfold onlyCascade at h1 h2
    split at h1
    · split at h2
      · omega
      · exact absurd h2 (Set.notMem_empty _)
    · exact absurd h1 (Set.notMem_empty _)

theorem stream_onlyCascade {levels : List (Level ℝ)} (h : Proper levels) (q : List (Nat × Bool)) :
    stream (⋃ k, onlyCascade levels q k) = ENNReal.ofReal (weight levels q) := by
  rw [← stream_follows h q]
  congr 1
  ext ω
  simp only [Set.mem_iUnion, onlyCascade]
  constructor
  · rintro ⟨k, hk⟩
    split at hk
    · exact hk
    · exact absurd hk (Set.notMem_empty _)
  · intro hω
    exact ⟨_, by rw [if_pos rfl]; exact hω⟩

theorem nice_at {f : Rnd ℝ Unit} (hf : Local f) (hm : ∀ a, MeasurableSet (At f () a)) : Nice fun a => At f () a :=
  ⟨hm, fun n ω ω' => at_dep f () n ω ω', fun _ _ _ h1 h2 => (at_unique hf h1 h2).2⟩

theorem bothParts_eq (f : Rnd ℝ Unit) (levels : List (Level ℝ)) (q : List (Nat × Bool)) :
    bothParts f levels q = followed (fun a => At f () a) (onlyCascade levels q) := by
  funext k
  ext ω
  constructor
  · rintro ⟨a, h1, h2, rfl⟩
    exact ⟨a, by omega, h1, by rw [Nat.add_sub_cancel_left, onlyCascade, if_pos rfl]; exact h2⟩
  · rintro ⟨a, h0, h1, h2⟩
    rw [onlyCascade] at h2
    split at h2
    · exact ⟨a, h1, h2, by omega⟩
    · exact absurd h2 (Set.notMem_empty _)

theorem stream_at {f : Rnd ℝ Unit} : stream (⋃ a, At f () a) = probIn f Set.univ := by
  unfold probIn
  congr 1
  ext ω
  simp only [Set.mem_univ, and_true, Set.mem_ofPred_eq, Set.mem_iUnion, At]
  exact ⟨fun ⟨k, h⟩ => ⟨k, (), h⟩, fun ⟨k, _, h⟩ => ⟨k, h⟩⟩

/-! ### Start on a level -/

/-- What a history that starts on a level shows. -/
theorem disc_entries {par : Par ℝ} {n : Nuc ℝ} (hn : par.chain[0]? = some n) {cs : List (Pid × Set ℝ)} {c : Nat}
    {q : List (Nat × Bool)} {st : St ℝ} {i : Nat} {s : List ℝ} :
    (∃ st', discStart par st i s = .ok (st', []) ∧ Records c cs q st'.hs) → (cs = [] ∧ c = 0 ∧ start q = i) ∧
      ∃ st2, cascade par 0 i { st with hs := [] } s = .ok ((0, st2), []) ∧ st2.hs.map seen = q.map entry := by
  rintro ⟨st', h1, ys, zs, z, e1, e2, e3, e4, e5, e6⟩
  obtain ⟨⟨f, st2⟩, s2, g3, g4⟩ := Rnd.bind_ok.mp h1
  dsimp only at g3 g4
  unfold marker at g4
  obtain ⟨nx, s3, g5', g4⟩ := Rnd.bind_ok.mp g4
  obtain ⟨g5, hs3⟩ := Rnd.get_ok.mp g5'
  obtain ⟨lx, s4, g6', g4⟩ := Rnd.bind_ok.mp g4
  obtain ⟨g6, hs4⟩ := Rnd.get_ok.mp g6'
  split at g4
  · cases g4
  · next hcap2 =>
    obtain ⟨g7, hs5⟩ := Rnd.pure_ok.mp g4
    have hst' : st'.hs = st2.hs ++ [⟨.gamma, 0, levelPoint 0 f lx⟩] := by rw [← g7]
    obtain ⟨zs1, r1, r2, r3, r4, -⟩ := cascade_entries hn g3
    simp only [List.nil_append] at r1
    rw [hst', r1] at e1
    obtain ⟨e7, e8⟩ := List.append_inj' e1 rfl
    have hz : z = ⟨.gamma, 0, levelPoint 0 f lx⟩ := by simpa using e8.symm
    have hzs : ∀ y ∈ zs, y.mp.disc = true := by
      intro y hy
      have : (y.mp.disc, y.mp.n, y.mp.k, y.id) ∈ zs.map (fun h => (h.mp.disc, h.mp.n, h.mp.k, h.id)) := List.mem_map.mpr ⟨y, hy, rfl⟩
      rw [e4] at this
      obtain ⟨w, -, hw⟩ := List.mem_map.mp this
      exact (Prod.mk.inj hw).1.symm
    obtain ⟨hy0, rfl⟩ := split_unique (ys := []) (by simpa using e7) (by simp) e3 (fun y hy => (r4 y hy).1) hzs
    subst hy0
    cases e2
    subst hz
    have hc : c = 0 := e5.symm
    have hf : f = 0 := e6
    subst hf
    have hstart : start q = i := by
      cases q with
      | nil =>
        have : zs1 = [] := by simpa using e4
        exact (r2 this)
      | cons w q =>
        cases zs1 with
        | nil => simp at e4
        | cons z0 zs =>
          simp only [List.map_cons, List.cons.injEq, Prod.mk.injEq] at e4
          rw [← r3 z0 rfl, e4.1.2.2.1]
          rfl
    refine ⟨⟨rfl, hc, hstart⟩, st2, ?_, ?_⟩
    · rw [g3]
      rw [← hs3, ← hs4, hs5]
    · rw [r1]
      have := congrArg (List.map fun t : Bool × Nat × Nat × Pid => (t.2.2.1, t.2.2.2)) e4
      simp only [List.map_map] at this
      exact this

theorem disc_at {par : Par ℝ} {n : Nuc ℝ} (hn : par.chain[0]? = some n) (hpr : Proper n.levels) (cs : List (Pid × Set ℝ)) (c : Nat)
    (q : List (Nat × Bool)) (hq : cs = [] ∧ c = 0 → start q < n.levels.length) (st : St ℝ) (i : Nat)
    (hcap : cs.length + start q < par.cap) (hts : cs.length + start q ≤ st.ts.length)
    (hw : par.window ≤ 0 ∨ ∀ (i : Nat) (l : Level ℝ), n.levels[i]? = some l → l.halflife ≤ 0) {ω : ℕ → ℝ} (hω : Inside ω) (k : Nat) :
    (∃ st', discStart par st i (pre ω k) = .ok (st', []) ∧ Records c cs q st'.hs) ↔
      (cs = [] ∧ c = 0 ∧ start q = i) ∧ ω ∈ onlyCascade n.levels q k := by
  have hQ : Quiet par n.levels 0 := by
    rcases hw with h | h
    · exact .inl h
    · exact .inr ⟨h, le_refl _⟩
  have hcas : ∀ (i : Nat) (st : St ℝ), cascade par 0 i st (pre ω k) = cascadeLoop par 0 n.levels (k + 1) i 0 st (pre ω k) := by
    intro i st
    unfold cascade
    rw [hn]
    simp only [pre_length]
  have honly : ω ∈ onlyCascade n.levels q k ↔ ω ∈ Follows n.levels q ∧ k = cost n.levels q := by
    unfold onlyCascade
    split
    · next h => exact ⟨fun h1 => ⟨h1, h⟩, fun h1 => h1.1⟩
    · next h => exact ⟨fun h1 => absurd h1 (Set.notMem_empty _), fun h1 => absurd h1.2 h⟩
  rw [honly]
  constructor
  · intro h0
    obtain ⟨⟨hcs, hc, hstart⟩, st2, h1, h2⟩ := disc_entries hn h0
    refine ⟨⟨hcs, hc, hstart⟩, ?_⟩
    have key := cascade_at hn hpr (start q) (hq ⟨hcs, hc⟩) 0 { st with hs := [] } q ω hQ (by simp only [List.length_nil]; omega)
      (by simp only [List.length_nil]; omega) hω k
    refine (key.mp ⟨st2, ?_, ?_⟩).2
    · rw [← hcas, hstart, h1]
    · rw [h2]
      rfl
  · rintro ⟨⟨rfl, rfl, rfl⟩, h2, rfl⟩
    have hlq := hq ⟨rfl, rfl⟩
    obtain ⟨st2, g6, g7⟩ := (cascade_at hn hpr (start q) hlq 0 { st with hs := [] } q ω hQ (by simpa using hcap)
      (by simpa using hts) hω (cost n.levels q)).mpr ⟨rfl, h2, rfl⟩
    rw [← hcas] at g6
    obtain ⟨zs, r1, r2, r3, r4, r5⟩ := cascade_entries hn g6
    simp only [List.nil_append] at r1
    have hl0 : n.levels[0]? = some n.levels[0] := List.getElem?_eq_getElem (by omega)
    refine ⟨{ st2 with hs := st2.hs ++ [⟨.gamma, 0, levelPoint 0 0 n.levels[0]⟩] }, ?_, [], zs, _, by rw [r1]; rfl, .nil, by simp, ?_, rfl, rfl⟩
    · show (cascade par 0 (start q) { st with hs := [] } >>= fun f => marker par 0 f.1 f.2) _ = _
      rw [Rnd.bind_of_ok g6]
      unfold marker
      have hc0 : 0 < par.cap := by omega
      rw [hn, Rnd.bind_of_ok (Rnd.get_ok.mpr ⟨rfl, rfl⟩), hl0, Rnd.bind_of_ok (Rnd.get_ok.mpr ⟨rfl, rfl⟩), if_neg (not_le.mpr (r5 hc0))]
      rfl
    · rw [r1] at g7
      simp only [List.map_nil, List.nil_append] at g7
      have e := congrArg (List.map fun t : Nat × Pid => (true, 0, t.1, t.2)) g7
      rw [List.map_map, List.map_map] at e
      refine Eq.trans (List.map_congr_left fun z hz => ?_) e
      obtain ⟨w1, w2, -⟩ := r4 z hz
      rw [w1, w2]
      rfl

/-! ### Any start -/

theorem run_eq {b : Job ℝ} {chain : List (Nuc ℝ)} (h : IsChain b chain) (st : St ℝ) (stale : Nat → ℝ) (s : List ℝ) :
    b.run st stale s = decay { b.par with chain := chain } st b.e b.j b.p s := by
  obtain ⟨n, e0, h1, h2⟩ := h
  have hc : 0 < b.tb.maxc := by
    by_contra hc
    unfold initSystem at h2
    rw [if_pos (by omega)] at h2
    cases h2
  unfold Job.run fragment
  rw [Rnd.bind_of_ok (Rnd.lift_ok.mpr ⟨h1, rfl⟩), initSystem_stale (s2 := e0) hc h1, Rnd.bind_of_ok (Rnd.lift_ok.mpr ⟨h2, rfl⟩)]

/-- The time-stamp array keeps its length. -/
theorem run_ts {N : Nat} {b : Job ℝ} {chain : List (Nuc ℝ)} {w : Want} (h : JobReady N b chain w) {st st' : St ℝ} {stale : Nat → ℝ}
    {s s' : List ℝ} (hts : st.ts.length = N) (hr : b.run st stale s = .ok (st', s')) : st'.ts.length = N := by
  rw [run_eq h.1] at hr
  have := decay_alike (par := { b.par with chain := chain }) h.2.chained.width.le h.2.chained.spins h.2.chained.phys
    (fun n hn => (h.2.chained.levels n hn).1) hts hts b.e b.j b.p s
  rw [hr] at this
  exact this.1.2.1

/-- The law of one decay, whatever earlier decays left in the arrays. -/
theorem decay_event {N : Nat} {par : Par ℝ} {E : ℝ} {j : Int} {w : Want} (h : Ready N par E j w) (p : Int) :
    ∃ S, Nice S ∧ stream (⋃ n, S n) = decayChance par E j p w ∧ ∀ ω, Inside ω → ∀ (st : St ℝ), st.ts.length = N →
      ∀ k, (∃ st', decay par st E j p (pre ω k) = .ok (st', []) ∧ Records w.c w.cs w.q st'.hs) ↔ ω ∈ S k := by
  classical
  obtain ⟨n, hn, hpr, hq, hw⟩ := h.nucleus
  obtain ⟨n0, hn0⟩ : ∃ n0, par.chain[0]? = some n0 := by
    have : w.c < par.chain.length := by
      by_contra hc
      rw [List.getElem?_eq_none (by omega)] at hn
      cases hn
    exact ⟨par.chain[0], List.getElem?_eq_getElem (by omega)⟩
  obtain ⟨m0, hm0⟩ : ∃ m0, setup par.w par.nbin (elmax n0.levels) E = .ok m0 := setup_exists h.chained.grid
  have hdec : ∀ (st : St ℝ) s, decay par st E j p s =
      (if m0.ncont = 0 then discStart par st (startLevel n0 m0 E) else contStart par st E j p) s := by
    intro st s
    unfold decay
    rw [hn0, Rnd.bind_of_ok (Rnd.get_ok.mpr ⟨rfl, rfl⟩), Rnd.bind_of_ok (Rnd.lift_ok.mpr ⟨hm0, rfl⟩)]
  have hchance : decayChance par E j p w = (if m0.ncont = 0 then (if w.cs = [] ∧ w.c = 0 ∧ start w.q = startLevel n0 m0 E then 1 else 0)
        else patternValue par (fun n i => n = w.c ∧ i = start w.q) w.cs
          ⟨0, if p < 0 then -1 else 1, j, 0, E, false⟩) * ENNReal.ofReal (weight n.levels w.q) := by
    unfold decayChance
    simp only [hn0, hn, hm0]
  by_cases hcont : m0.ncont = 0
  · simp only [hcont, if_true] at hdec hchance
    by_cases hg : w.cs = [] ∧ w.c = 0 ∧ start w.q = startLevel n0 m0 E
    · have hnn : n0 = n := by
        rw [hg.2.1, hn0] at hn
        exact Option.some.inj hn
      refine ⟨onlyCascade n.levels w.q, nice_onlyCascade hpr w.q, ?_, ?_⟩
      · rw [hchance, if_pos hg, one_mul, stream_onlyCascade hpr]
      · intro ω hω st hts k
        simp only [hdec]
        rw [disc_at (n := n) (by rw [← hnn]; exact hn0) hpr w.cs w.c w.q (fun _ => hq) st _ h.room.1 (by rw [hts]; exact h.room.2) hw hω k]
        exact ⟨fun h => h.2, fun h => ⟨hg, h⟩⟩
    · refine ⟨fun _ => ∅, ⟨fun _ => MeasurableSet.empty, fun _ _ _ _ => Iff.rfl, fun _ _ _ h => absurd h (Set.notMem_empty _)⟩, ?_, ?_⟩
      · rw [hchance, if_neg hg, zero_mul]
        simp
      · intro ω hω st hts k
        simp only [hdec]
        exact ⟨fun h => absurd (disc_entries hn0 h).1 hg, fun h => absurd h (Set.notMem_empty _)⟩
  · have hst : ∀ st : St ℝ, contStart par st E j p = historyLoop par
        { st with jmax := fun c => if c = 0 then (par.maxJ : Int) - 1 else st.jmax c } ⟨0, if p < 0 then -1 else 1, j, 0, E, false⟩ := by
      intro st
      unfold contStart
      rw [fixedStart_one, if_pos h.spin]
    simp only [hcont, if_false, hst] at hdec hchance
    have hin : InRange par E ⟨0, if p < 0 then -1 else 1, j, 0, E, false⟩ :=
      ⟨⟨n0, hn0⟩, by dsimp only; split <;> simp, h.spin.1, h.spin.2, le_rfl⟩
    have H := C113_chained h.chained hin
    have hl := local_walk (par := par) (fun n i => n = w.c ∧ i = start w.q) w.cs ⟨0, if p < 0 then -1 else 1, j, 0, E, false⟩
    have hm := walk_meas (par := par) h.measurable (fun n i => n = w.c ∧ i = start w.q) w.cs h.sets
      ⟨0, if p < 0 then -1 else 1, j, 0, E, false⟩
    refine ⟨followed _ _, (nice_at hl hm).followed (nice_onlyCascade hpr w.q), ?_, ?_⟩
    · rw [stream_followed (nice_at hl hm) (nice_onlyCascade hpr w.q), stream_onlyCascade hpr, hchance, stream_at,
        walk_value h.measurable _ H w.cs h.sets _ (.inr .start)]
    · intro ω hω st hts k
      simp only [hdec]
      rw [history_at hn hpr H w.cs w.q hq rfl _ h.room.1 (by simpa only [hts] using h.room.2) hw hω k, ← bothParts_eq]
      rfl

/-! ## Any number of decays -/

theorem run_event (nn ng ni N : Nat) : ∀ (l : List (Job ℝ × (Nat → ℝ))) (ps : List (List (Nuc ℝ) × Want)),
    List.Forall₂ (fun b p => JobReady N b.1 p.1 p.2) l ps → ∃ S, Nice S ∧
      stream (⋃ n, S n) = (List.zipWith (fun b p => jobChance b.1 p.1 p.2) l ps).prod ∧
      ∀ ω, Inside ω → ∀ (st : St ℝ), st.ts.length = N →
        ∀ k, (∃ r, oneProgram nn ng ni l st (pre ω k) = .ok (r, []) ∧ Shows (ps.map Prod.snd) r) ↔ ω ∈ S k := by
  intro l ps h
  induction h with
  | nil =>
    refine ⟨idle, nice_idle, stream_idle, ?_⟩
    intro ω hω st hts k
    unfold oneProgram idle
    constructor
    · rintro ⟨r, h1, h2⟩
      have := (Rnd.pure_ok.mp h1).2
      have hk : k = 0 := by rw [← pre_length ω k, this]; rfl
      rw [if_pos hk]
      trivial
    · intro hk
      split at hk
      · next h0 => subst h0; exact ⟨[], rfl, .nil⟩
      · exact absurd hk (Set.notMem_empty _)
  | @cons b p l ps hb hl ih =>
    obtain ⟨T, hT, vT, eT⟩ := ih
    obtain ⟨S, hS, vS, eS⟩ := decay_event hb.2 b.1.p
    refine ⟨followed S T, hS.followed hT, ?_, ?_⟩
    · rw [stream_followed hS hT, vS, vT, List.zipWith_cons_cons, List.prod_cons]
      rfl
    · intro ω hω st hts k
      have hrun := run_eq hb.1
      constructor
      · rintro ⟨r, h1, h2⟩
        obtain ⟨st1, a, ha, g1, g2⟩ := (at_bind (local_run _ _ _) r k ω).mp h1
        obtain ⟨r', s1, g3, g4⟩ := Rnd.bind_ok.mp g2
        obtain ⟨g5, g6⟩ := Rnd.pure_ok.mp g4
        subst g5 g6
        cases h2 with
        | cons h3 h4 =>
          refine ⟨a, ha, (eS ω hω st hts a).mp ⟨st1, by rw [← hrun _ b.2]; exact g1, h3⟩, ?_⟩
          exact (eT _ (inside_shift hω a) st1 (run_ts hb hts g1) (k - a)).mp ⟨r', g3, h4⟩
      · rintro ⟨a, ha, h1, h2⟩
        obtain ⟨st1, g1, g2⟩ := (eS ω hω st hts a).mpr h1
        rw [← hrun _ b.2] at g1
        obtain ⟨r', g3, g4⟩ := (eT _ (inside_shift hω a) st1 (run_ts hb hts g1) (k - a)).mpr h2
        refine ⟨visible nn ng ni st1 :: r', ?_, .cons g2 g4⟩
        refine (at_bind (local_run _ _ _) _ k ω).mpr ⟨st1, a, ha, g1, ?_⟩
        exact Rnd.bind_ok.mpr ⟨r', [], g3, rfl⟩

end CGMF.HF

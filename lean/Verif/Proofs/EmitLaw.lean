import Verif.Proofs.Emit

/-! # Law of the decay of one fragment with directions, as a function of the energy -/

namespace CGMF.Law

open MeasureTheory

/-! ## A program from sets of sequences -/

/-- The list as a sequence. -/
def ext (s : List ℝ) (i : ℕ) : ℝ := s.getD i 0

theorem ext_pre (ω : ℕ → ℝ) {k i : ℕ} (h : i < k) : ext (pre ω k) i = ω i := by
  unfold ext pre
  simp [List.getD, h]

open Classical in
/-- The program that ends after `n` numbers on the sequences in `S n`. -/
noncomputable def ofSets (S : ℕ → Set (ℕ → ℝ)) : Rnd ℝ Unit := fun s =>
  if h : ∃ n, n ≤ s.length ∧ ext s ∈ S n then .ok ((), s.drop h.choose) else .more

theorem ofSets_ok {S : ℕ → Set (ℕ → ℝ)} (hS : Nice S) {s s' : List ℝ} :
    ofSets S s = .ok ((), s') ↔ ∃ n, n ≤ s.length ∧ ext s ∈ S n ∧ s' = s.drop n := by
  unfold ofSets
  constructor
  · intro h
    split at h
    · next hx =>
      cases h
      exact ⟨hx.choose, hx.choose_spec.1, hx.choose_spec.2, rfl⟩
    · cases h
  · rintro ⟨n, h1, h2, rfl⟩
    have hx : ∃ n, n ≤ s.length ∧ ext s ∈ S n := ⟨n, h1, h2⟩
    rw [dif_pos hx, hS.one _ _ _ hx.choose_spec.2 h2]

theorem local_ofSets {S : ℕ → Set (ℕ → ℝ)} (hS : Nice S) : Local (ofSets S) := by
  intro s a s' h
  obtain ⟨n, h1, h2, rfl⟩ := (ofSets_ok hS).mp h
  refine ⟨s.take n, (List.take_append_drop n s).symm, fun t => ?_⟩
  refine (ofSets_ok hS).mpr ⟨n, by simp; omega, ?_, ?_⟩
  · refine (hS.dep n _ _ fun i hi => ?_).mp h2
    unfold ext
    rw [List.getD_eq_getElem?_getD, List.getD_eq_getElem?_getD, List.getElem?_append_left (by simp; omega), List.getElem?_take_of_lt hi]
  · rw [List.drop_append_of_le_length (by simp; omega)]
    simp

theorem at_ofSets {S : ℕ → Set (ℕ → ℝ)} (hS : Nice S) (k : ℕ) : At (ofSets S) () k = S k := by
  ext ω
  have key : ∀ n ≤ k, (Law.ext (pre ω k) ∈ S n ↔ ω ∈ S n) := fun n hn => hS.dep n _ _ fun i hi => ext_pre ω (by omega)
  show ofSets S (pre ω k) = .ok ((), []) ↔ _
  rw [ofSets_ok hS]
  constructor
  · rintro ⟨n, h1, h2, h3⟩
    have := congrArg List.length h3
    simp only [List.length_nil, List.length_drop, pre_length] at this h1
    obtain rfl : n = k := by omega
    exact (key n le_rfl).mp h2
  · intro h
    exact ⟨k, by simp, (key k le_rfl).mpr h, by simp⟩

theorem prob_ofSets {S : ℕ → Set (ℕ → ℝ)} (hS : Nice S) : probIn (ofSets S) Set.univ = stream (⋃ k, S k) := by
  rw [← HF.stream_at]
  simp only [at_ofSets hS]

/-- Sets that depend on a parameter. -/
structure NiceIn {γ : Type} [MeasurableSpace γ] (S : γ → ℕ → Set (ℕ → ℝ)) : Prop where
  nice : ∀ c, Nice (S c)
  joint : ∀ k, MeasurableSet {x : γ × (ℕ → ℝ) | x.2 ∈ S x.1 k}

theorem NiceIn.jm {γ : Type} [MeasurableSpace γ] {S : γ → ℕ → Set (ℕ → ℝ)} (h : NiceIn S) : JM fun c => ofSets (S c) := by
  intro n
  refine PM.countable fun a => ?_
  have : {x : γ × (ℕ → ℝ) | outAt (ofSets (S x.1)) n x.2 = some a} = {x | x.2 ∈ S x.1 n} := by
    ext x
    show outAt (ofSets (S x.1)) n x.2 = some () ↔ _
    rw [outAt_eq, at_ofSets (h.nice x.1)]
    exact Iff.rfl
  rw [this]
  exact h.joint n

theorem NiceIn.followed {γ : Type} [MeasurableSpace γ] {S T : γ → ℕ → Set (ℕ → ℝ)} (hS : NiceIn S) (hT : NiceIn T) :
    NiceIn fun c => Law.followed (S c) (T c) := by
  refine ⟨fun c => (hS.nice c).followed (hT.nice c), fun k => ?_⟩
  have : {x : γ × (ℕ → ℝ) | x.2 ∈ Law.followed (S x.1) (T x.1) k} =
      ⋃ a, ⋃ (_ : a ≤ k), {x | x.2 ∈ S x.1 a} ∩ (fun x : γ × (ℕ → ℝ) => (x.1, shift a x.2)) ⁻¹' {x | x.2 ∈ T x.1 (k - a)} := by
    ext x
    simp only [Law.followed, Set.mem_ofPred_eq, Set.mem_iUnion, Set.mem_inter_iff, Set.mem_preimage, exists_prop]
  rw [this]
  refine MeasurableSet.iUnion fun a => MeasurableSet.iUnion fun _ => (hS.joint a).inter ?_
  exact (measurable_fst.prodMk ((measurable_shift a).comp measurable_snd)) (hT.joint _)

theorem NiceIn.const {γ : Type} [MeasurableSpace γ] {S : ℕ → Set (ℕ → ℝ)} (h : Nice S) : NiceIn fun _ : γ => S :=
  ⟨fun _ => h, fun k => measurable_snd (h.meas k)⟩

theorem NiceIn.comp {γ δ : Type} [MeasurableSpace γ] [MeasurableSpace δ] {S : γ → ℕ → Set (ℕ → ℝ)} (h : NiceIn S) {u : δ → γ}
    (hu : Measurable u) : NiceIn fun d => S (u d) :=
  ⟨fun d => h.nice (u d), fun k => ((hu.comp measurable_fst).prodMk measurable_snd) (h.joint k)⟩

theorem nice_empty : Nice fun _ => ∅ :=
  ⟨fun _ => MeasurableSet.empty, fun _ _ _ _ => Iff.rfl, fun _ _ _ h => absurd h (Set.notMem_empty _)⟩

/-- Sets chosen by a condition on the parameter. -/
theorem NiceIn.ite {γ : Type} [MeasurableSpace γ] {S T : γ → ℕ → Set (ℕ → ℝ)} {p : γ → Prop} [DecidablePred p]
    (hp : MeasurableSet {c | p c}) (hS : NiceIn S) (hT : NiceIn T) : NiceIn fun c => if p c then S c else T c := by
  refine ⟨fun c => ?_, fun k => ?_⟩
  · split
    · exact hS.nice c
    · exact hT.nice c
  · have : {x : γ × (ℕ → ℝ) | x.2 ∈ (if p x.1 then S x.1 else T x.1) k} =
        (Prod.fst ⁻¹' {c | p c} ∩ {x | x.2 ∈ S x.1 k}) ∪ ((Prod.fst ⁻¹' {c | p c})ᶜ ∩ {x | x.2 ∈ T x.1 k}) := by
      ext x
      simp only [Set.mem_ofPred_eq, Set.mem_union, Set.mem_inter_iff, Set.mem_preimage, Set.mem_compl_iff]
      by_cases h : p x.1 <;> simp [h]
    rw [this]
    exact ((measurable_fst hp).inter (hS.joint k)).union ((measurable_fst hp).compl.inter (hT.joint k))

end CGMF.Law

namespace CGMF.HF

open CGMF.Law CGMF.MC CGMF.Grid CGMF.Props CGMF.Branching MeasureTheory

theorem cm_nearest : ∀ (ls : List (Level ℝ)) (i : Nat) {d : ℝ → ℝ} (_ : Measurable d) (k : Nat), CM fun E : ℝ => nearest E ls i (d E) k := by
  intro ls
  induction ls with
  | nil => intro i d _ k; exact CM.const k
  | cons l ls ih =>
    intro i d hd k
    have hl : Measurable fun E : ℝ => |E - l.energy| := continuous_abs.measurable.comp (measurable_id.sub_const _)
    exact CM.ite (p := fun E : ℝ => |E - l.energy| < d E) (measurableSet_lt hl hd) (ih (i + 1) hl i) (ih (i + 1) hd k)

open Classical in
/-- Sequences with which the decay from energy `E` is the one asked for. -/
noncomputable def decaySets (par : Par ℝ) (j p : Int) (w : Want) (E : ℝ) : ℕ → Set (ℕ → ℝ) :=
  match par.chain[0]?, par.chain[w.c]? with
  | some n0, some n => match gridKey par.w par.nbin (elmax n0.levels) E with
    | some (_, c) => if c = 0 then
          (if w.cs = [] ∧ w.c = 0 ∧ start w.q = startLevel n0 ⟨0, 0, fun _ => 0⟩ E then onlyCascade n.levels w.q else fun _ => ∅)
        else followed (fun a => At (walk par (fun n i => n = w.c ∧ i = start w.q) w.cs ⟨0, if p < 0 then -1 else 1, j, 0, E, false⟩) () a)
          (onlyCascade n.levels w.q)
    | none => fun _ => ∅
  | _, _ => fun _ => ∅

theorem decay_sets {N : Nat} {par : Par ℝ} {E : ℝ} {j : Int} {w : Want} (h : Ready N par E j w) (p : Int) :
    stream (⋃ n, decaySets par j p w E n) = decayChance par E j p w ∧ ∀ ω, Inside ω → ∀ (st : St ℝ), st.ts.length = N →
      ∀ k, (∃ st', decay par st E j p (pre ω k) = .ok (st', []) ∧ Records w.c w.cs w.q st'.hs) ↔ ω ∈ decaySets par j p w E k := by
  classical
  obtain ⟨n, hn, hpr, hq, hw⟩ := h.nucleus
  obtain ⟨n0, hn0⟩ : ∃ n0, par.chain[0]? = some n0 := by
    have : w.c < par.chain.length := by
      by_contra hc
      rw [List.getElem?_eq_none (by omega)] at hn
      cases hn
    exact ⟨par.chain[0], List.getElem?_eq_getElem (by omega)⟩
  obtain ⟨m0, hm0⟩ : ∃ m0, setup par.w par.nbin (elmax n0.levels) E = .ok m0 := setup_exists h.chained.grid
  have hdec : ∀ (st : St ℝ) s, decay par st E j p s =
      (if m0.ncont = 0 then discStart par st (startLevel n0 m0 E) else contStart par st E j p) s := by
    intro st s
    unfold decay
    rw [hn0, Rnd.bind_of_ok (Rnd.get_ok.mpr ⟨rfl, rfl⟩), Rnd.bind_of_ok (Rnd.lift_ok.mpr ⟨hm0, rfl⟩)]
  have hchance : decayChance par E j p w = (if m0.ncont = 0 then (if w.cs = [] ∧ w.c = 0 ∧ start w.q = startLevel n0 m0 E then 1 else 0)
        else patternValue par (fun n i => n = w.c ∧ i = start w.q) w.cs
          ⟨0, if p < 0 then -1 else 1, j, 0, E, false⟩) * ENNReal.ofReal (weight n.levels w.q) := by
    unfold decayChance
    simp only [hn0, hn, hm0]
  have hsets : decaySets par j p w E = if m0.ncont = 0 then
      (if w.cs = [] ∧ w.c = 0 ∧ start w.q = startLevel n0 ⟨0, 0, fun _ => 0⟩ E then onlyCascade n.levels w.q else fun _ => ∅)
      else followed (fun a => At (walk par (fun n i => n = w.c ∧ i = start w.q) w.cs ⟨0, if p < 0 then -1 else 1, j, 0, E, false⟩) () a)
        (onlyCascade n.levels w.q) := by
    unfold decaySets
    simp only [hn0, hn, (gridKey_some hm0).1]
  by_cases hcont : m0.ncont = 0
  · have hsl : startLevel n0 ⟨0, 0, fun _ => 0⟩ E = startLevel n0 m0 E := by
      unfold startLevel
      rw [hcont]
    rw [hsl] at hsets
    simp only [hcont, if_true] at hdec hchance hsets
    by_cases hg : w.cs = [] ∧ w.c = 0 ∧ start w.q = startLevel n0 m0 E
    · have hnn : n0 = n := by
        rw [hg.2.1, hn0] at hn
        exact Option.some.inj hn
      rw [hsets, if_pos hg]
      refine ⟨?_, ?_⟩
      · rw [hchance, if_pos hg, one_mul, stream_onlyCascade hpr]
      · intro ω hω st hts k
        simp only [hdec]
        rw [disc_at (n := n) (by rw [← hnn]; exact hn0) hpr w.cs w.c w.q (fun _ => hq) st _ h.room.1 (by rw [hts]; exact h.room.2) hw hω k]
        exact ⟨fun h => h.2, fun h => ⟨hg, h⟩⟩
    · rw [hsets, if_neg hg]
      refine ⟨?_, ?_⟩
      · rw [hchance, if_neg hg, zero_mul]
        simp
      · intro ω hω st hts k
        simp only [hdec]
        exact ⟨fun h => absurd (disc_entries hn0 h).1 hg, fun h => absurd h (Set.notMem_empty _)⟩
  · have hst : ∀ st : St ℝ, contStart par st E j p = historyLoop par
        { st with jmax := fun c => if c = 0 then (par.maxJ : Int) - 1 else st.jmax c } ⟨0, if p < 0 then -1 else 1, j, 0, E, false⟩ := by
      intro st
      unfold contStart
      rw [fixedStart_one, if_pos h.spin]
    simp only [hcont, if_false, hst] at hdec hchance hsets
    have hin : InRange par E ⟨0, if p < 0 then -1 else 1, j, 0, E, false⟩ :=
      ⟨⟨n0, hn0⟩, by dsimp only; split <;> simp, h.spin.1, h.spin.2, le_rfl⟩
    have H := C113_chained h.chained hin
    have hl := local_walk (par := par) (fun n i => n = w.c ∧ i = start w.q) w.cs ⟨0, if p < 0 then -1 else 1, j, 0, E, false⟩
    have hm := walk_meas (par := par) h.measurable (fun n i => n = w.c ∧ i = start w.q) w.cs h.sets
      ⟨0, if p < 0 then -1 else 1, j, 0, E, false⟩
    rw [hsets]
    refine ⟨?_, ?_⟩
    · rw [stream_followed (nice_at hl hm) (nice_onlyCascade hpr w.q), stream_onlyCascade hpr, hchance, stream_at,
        walk_value h.measurable _ H w.cs h.sets _ (.inr .start)]
    · intro ω hω st hts k
      simp only [hdec]
      rw [history_at hn hpr H w.cs w.q hq rfl _ h.room.1 (by simpa only [hts] using h.room.2) hw hω k, ← bothParts_eq]
      rfl

/-- The sets depend measurably on the energy. -/
theorem decay_niceIn {par : Par ℝ} (hp : ∀ n, PhysMeasurable (par.phys n)) (j p : Int) {w : Want} (hs : ∀ c ∈ w.cs, MeasurableSet c.2)
    (hpr : ∀ n, par.chain[w.c]? = some n → Proper n.levels) : NiceIn (decaySets par j p w) := by
  classical
  cases h0 : par.chain[0]? with
  | none =>
    have : decaySets par j p w = fun _ _ => ∅ := by
      funext E
      unfold decaySets
      rw [h0]
    rw [this]
    exact NiceIn.const nice_empty
  | some n0 =>
    cases hn : par.chain[w.c]? with
    | none =>
      have : decaySets par j p w = fun _ _ => ∅ := by
        funext E
        unfold decaySets
        rw [h0, hn]
      rw [this]
      exact NiceIn.const nice_empty
    | some n =>
      have hpr := hpr n hn
      have hk := cm_gridKey par.w par.nbin (elmax n0.levels)
      have e : decaySets par j p w = fun E => if (∃ t, gridKey par.w par.nbin (elmax n0.levels) E = some (t, 0)) then
            (if w.cs = [] ∧ w.c = 0 ∧ start w.q = startLevel n0 ⟨0, 0, fun _ => 0⟩ E then onlyCascade n.levels w.q else fun _ => ∅)
          else if gridKey par.w par.nbin (elmax n0.levels) E = none then fun _ => ∅
          else followed (fun a => At (walk par (fun n i => n = w.c ∧ i = start w.q) w.cs (ofKey (0, if p < 0 then -1 else 1, j, 0, false) E)) () a)
            (onlyCascade n.levels w.q) := by
        funext E
        unfold decaySets
        simp only [h0, hn]
        cases hg : gridKey par.w par.nbin (elmax n0.levels) E with
        | none => simp
        | some x =>
          obtain ⟨t, c⟩ := x
          by_cases hc : c = 0
          · simp [hc]
          · simp [hc]
            rfl
      rw [e]
      refine NiceIn.ite (hk.pred fun o => ∃ t, o = some (t, 0)) (NiceIn.ite ?_ (NiceIn.const (nice_onlyCascade hpr w.q)) (NiceIn.const nice_empty))
        (NiceIn.ite (hk none) (NiceIn.const nice_empty) (NiceIn.followed ⟨?_, ?_⟩ (NiceIn.const (nice_onlyCascade hpr w.q))))
      · have hcm : CM fun E : ℝ => startLevel n0 ⟨0, 0, fun _ => 0⟩ E := by
          unfold startLevel
          refine CM.ite (MeasurableSet.const _) (CM.const _) ?_
          exact (cm_nearest _ 0 measurable_const 0).bind (g := fun c _ => c + 1) fun c => CM.const _
        exact (MeasurableSet.const _).inter ((MeasurableSet.const _).inter (hcm.pred fun i => start w.q = i))
      · intro E
        exact nice_at (local_walk _ _ _) (walk_meas hp _ w.cs hs _)
      · intro k
        have hj := (HF.jm_after (par := par) hp (fun n i => n = w.c ∧ i = start w.q) w.cs hs).comp
          (measurable_point (0, if p < 0 then -1 else 1, j, 0, false) measurable_id)
        have := (hj k).dom
        refine (congrArg MeasurableSet ?_).mp this
        ext x
        simp only [Set.mem_ofPred_eq, outAt_eq]
        exact ⟨fun ⟨_, h⟩ => h, fun h => ⟨(), h⟩⟩

end CGMF.HF

namespace CGMF.Whole

open CGMF.MC CGMF.Kin CGMF.HF CGMF.Isotropy CGMF.Law CGMF.Branching CGMF.Props MeasureTheory

/-- Sequences with which the decay from energy `E` and the directions are those asked for. -/
noncomputable def emitSets (par : Par ℝ) (j p : Int) (q : Ask) (E : ℝ) : ℕ → Set (ℕ → ℝ) :=
  followed (decaySets par j p q.w E) (dirsAt q)

theorem ready_niceIn {N : Nat} {par : Par ℝ} {E : ℝ} {j : Int} {w : Want} (h : Ready N par E j w) (p : Int) :
    NiceIn (decaySets par j p w) := by
  obtain ⟨n, hn, hpr, -, -⟩ := h.nucleus
  refine decay_niceIn h.measurable j p h.sets fun n' hn' => ?_
  rw [hn] at hn'
  cases hn'
  exact hpr

/-- What is ready up to an energy is ready below it. -/
theorem Ready.below {N : Nat} {par : Par ℝ} {E E' : ℝ} {j : Int} {w : Want} (h : Ready N par E j w) (hE : E' ≤ E) : Ready N par E' j w where
  chained := { h.chained with
    grid := by
      obtain ⟨k, h1, h2⟩ := h.chained.grid
      exact ⟨k, h1, by linarith⟩
    photon := fun n n0 n1 m0 m1 p j e h1 h2 h3 h4 h5 => h.chained.photon n n0 n1 m0 m1 p j e h1 h2 h3 h4 (h5.trans hE) }
  measurable := h.measurable
  spin := h.spin
  nucleus := h.nucleus
  sets := h.sets
  room := h.room

theorem pre_range {ω : ℕ → ℝ} (hω : Inside ω) (k : ℕ) : ∀ r ∈ pre ω k, 0 < r ∧ r ≤ 1 := by
  intro r hr
  obtain ⟨i, -, rfl⟩ := List.mem_map.mp hr
  exact ⟨(hω i).1, (hω i).2.le⟩

/-- One fragment. -/
theorem emit_at {N : Nat} {g : Cfg} {b : Job ℝ} {chain : List (Nuc ℝ)} {P top : ℝ} {q : Ask} (h : JobReady N b chain q.w)
    (hf : Flies g { b.par with chain := chain } b.z b.a P top q) {mom : V3} (hm : lenSq mom ≤ P ^ 2) (stale : Nat → ℝ) {ω : ℕ → ℝ}
    (hω : Inside ω) (st : St ℝ) (hts : st.ts.length = N) (k : ℕ) :
    (∃ x, emit g b mom stale st (pre ω k) = .ok (x, []) ∧ q.Shows x.1.hs x.2) ↔
      ω ∈ emitSets { b.par with chain := chain } b.j b.p q b.e k := by
  obtain ⟨-, hd⟩ := decay_sets h.2 b.p
  have hrun := run_eq h.1
  constructor
  · rintro ⟨⟨st1, o⟩, h1, h2, h3⟩
    obtain ⟨st2, a, ha, g1, g2⟩ := (at_bind (local_run _ _ _) _ k ω).mp h1
    obtain ⟨r, s1, g3, g4⟩ := Rnd.bind_ok.mp g2
    obtain ⟨hr, rfl⟩ := Rnd.lift_ok.mp g3
    obtain ⟨o', s2, g5, g6⟩ := Rnd.bind_ok.mp g4
    obtain ⟨g7, rfl⟩ := Rnd.pure_ok.mp g6
    cases g7
    have g1' : decay { b.par with chain := chain } st b.e b.j b.p (pre ω a) = .ok (st1, []) := by rw [← hrun _ stale]; exact g1
    obtain ⟨r', w1, w2, w3, w4, w5⟩ := recorded hf (pre_range hω a) g1' h2
    rw [hr] at w1
    cases w1
    refine ⟨a, ha, (hd ω hω st hts a).mp ⟨st1, g1', h2⟩, ?_⟩
    exact (boost_at hf hm w2 w3 w4 w5 (inside_shift hω a) (k - a)).mp ⟨o, g5, h3⟩
  · rintro ⟨a, ha, h1, h2⟩
    obtain ⟨st2, g1, g2⟩ := (hd ω hω st hts a).mpr h1
    obtain ⟨r, w1, w2, w3, w4, w5⟩ := recorded hf (pre_range hω a) g1 g2
    rw [← hrun _ stale] at g1
    obtain ⟨o, g3, g4⟩ := (boost_at hf hm w2 w3 w4 w5 (inside_shift hω a) (k - a)).mpr h2
    refine ⟨(st2, o), ?_, g2, g4⟩
    refine (at_bind (local_run _ _ _) _ k ω).mpr ⟨st2, a, ha, g1, ?_⟩
    show (Rnd.lift (record g.nn g.ng g.ni st2) >>= _) _ = _
    rw [Rnd.bind_of_ok (Rnd.lift_ok.mpr ⟨w1, rfl⟩), Rnd.bind_of_ok g3]
    rfl

theorem local_emit (g : Cfg) (b : Job ℝ) (mom : V3) (stale : Nat → ℝ) (st : St ℝ) : Local (emit g b mom stale st) :=
  local_bind (local_run _ _ _) fun _ => local_bind (local_lift _) fun _ => local_bind (local_boost _ _ _ _ _ _) fun _ => local_pure _

/-- The array of time stamps keeps its length. -/
theorem emit_ts {N : Nat} {g : Cfg} {b : Job ℝ} {chain : List (Nuc ℝ)} {w : Want} (h : JobReady N b chain w) {mom : V3} {stale : Nat → ℝ}
    {st : St ℝ} (hts : st.ts.length = N) {s s' : List ℝ} {x : St ℝ × Boosted} (hx : emit g b mom stale st s = .ok (x, s')) :
    x.1.ts.length = N := by
  obtain ⟨st1, s1, h1, hx⟩ := Rnd.bind_ok.mp hx
  obtain ⟨r, s2, -, hx⟩ := Rnd.bind_ok.mp hx
  obtain ⟨o, s3, -, hx⟩ := Rnd.bind_ok.mp hx
  obtain ⟨rfl, -⟩ := Rnd.pure_ok.mp hx
  exact run_ts h hts h1

theorem emit_niceIn {N : Nat} {g : Cfg} {par : Par ℝ} {E : ℝ} {j : Int} {z a : Int} {P top : ℝ} {q : Ask} (h : Ready N par E j q.w)
    (hf : Flies g par z a P top q) (p : Int) : NiceIn (emitSets par j p q) :=
  (ready_niceIn h p).followed (NiceIn.const (nice_dirs hf.sets))

theorem emit_chance {N : Nat} {g : Cfg} {par : Par ℝ} {E : ℝ} {j : Int} {z a : Int} {P top : ℝ} {q : Ask} (h : Ready N par E j q.w)
    (hf : Flies g par z a P top q) (p : Int) : stream (⋃ k, emitSets par j p q E k) = q.chance par E j p := by
  unfold emitSets Ask.chance
  rw [stream_followed ((ready_niceIn h p).nice E) (nice_dirs hf.sets), (decay_sets h p).1, stream_dirsAt hf.sets]

end CGMF.Whole

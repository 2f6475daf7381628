import Verif.Proofs.Whole
import Verif.Props.Runs

/-!
# C127: the probability of a whole event
-/

namespace CGMF.Props

open MeasureTheory ProbabilityTheory CGMF.MC CGMF.Kin CGMF.HF CGMF.Law CGMF.Isotropy CGMF.Frag CGMF.Whole

/-- **C127.**  One fragment: the particles, their energies and their directions are those asked for with the probability of the decay
times the shares of the directions.  So the directions depend neither on the decay nor on the momentum of the fragment. -/
theorem C127_fragment {N : Nat} (g : Cfg) (b : Job ℝ) (chain : List (Nuc ℝ)) (P top : ℝ) (q : Ask) (h : JobReady N b chain q.w)
    (hf : Flies g { b.par with chain := chain } b.z b.a P top q) (mom : V3) (hm : lenSq mom ≤ P ^ 2) (stale : Nat → ℝ) (st : St ℝ)
    (hts : st.ts.length = N) :
    stream {ω | ∃ k x, emit g b mom stale st (pre ω k) = .ok (x, []) ∧ q.Shows x.1.hs x.2} =
      q.chance { b.par with chain := chain } b.e b.j b.p := by
  rw [← emit_chance h.2 hf]
  apply stream_congr
  intro ω hω
  simp only [Set.mem_ofPred_eq, Set.mem_iUnion]
  exact exists_congr fun k => emit_at h hf hm stale hω st hts k

/-- **C127.**  A whole event: the pair `p` with a kinetic energy in `S`, given spins and parities, and given particles with their energies
and directions from both fragments.  The probability is the yield of the pair times the integral, over the kinetic energies, of the
probability of the spins and parities times the probabilities of both decays at the energies the fragments then have times the shares
of the directions.  `C t` is that product; the sum counts kinetic energies above the energy available, which are drawn again. -/
theorem C127_event (g : Cfg) (v : Env ℝ PfnOut) (amu : ℝ) (T : Tab ℝ) (fuel : Nat) (a0 : Int) (c : Pre.Comp ℝ) (p : Pair) (E q m s e0 : ℝ)
    (h : Setting v a0 c p E q m s e0) (hd : 0 ≤ T.dZ) (hAm : T.amin ≤ T.amax) (hl : ∃ x, v.mtab p.zl p.al = .ok x)
    (hh : ∃ x, v.mtab p.zh p.ah = .ok x)
    (J : Int → Nat → ℝ) (hJ : ∀ A k, J A k = if A % 2 = 0 then (k : ℝ) else (k : ℝ) + 1 / 2)
    (P : Int → ℝ → Nat → ℝ) (hP : ∀ A B k, P A B k = (2 * J A k + 1) * Real.exp (-(J A k * (J A k + 1)) / (2 * B)))
    (i j : Nat) (hi : i < v.nj) (hj : j < v.nj) (a b : Int) (ha : a = 1 ∨ a = -1) (hb : b = 1 ∨ b = -1)
    (S : Set ℝ) (hS : MeasurableSet S) (N : Nat) (ql qh : Ask) (cl ch : List (Nuc ℝ))
    (hf : Fits g v fuel a0 c p E e0 S N i j a b ql qh cl ch) (C : ℝ → ENNReal)
    (hC : ∀ t ∈ S, e0 ≤ t → t < E → ∀ u bl bh, Shared v fuel p (E - t) u bl bh → u.1 ≠ 0 → u.2 ≠ 0 →
      C t = ENNReal.ofReal (1 / 4 * (P p.al bl i / ∑ k ∈ Finset.range v.nj, P p.al bl k) *
          (P p.ah bh j / ∑ k ∈ Finset.range v.nj, P p.ah bh k)) *
        (ql.chance { g.par p.zl p.al with chain := cl } u.1 i a * qh.chance { g.par p.zh p.ah with chain := ch } u.2 j b))
    (hC0 : ∀ t ∈ S, e0 ≤ t → t < E → (¬ ∃ u bl bh, Shared v fuel p (E - t) u bl bh ∧ u.1 ≠ 0 ∧ u.2 ≠ 0) → C t = 0)
    (sl sh : Nat → ℝ) (st : St ℝ) (hts : st.ts.length = N) :
    stream {ω | ∃ k x, event g v amu T fuel a0 c sl sh st (pre ω k) = .ok (x, []) ∧ x.f.p = p ∧ x.f.tke ∈ S ∧
        x.f.x.spins = some (J p.al i, J p.ah j, a, b) ∧ ql.Shows x.hl x.l ∧ qh.Shows x.hh x.h} =
      prob (pair T c.ac c.zc) p * ((∑ k ∈ Finset.range fuel, gaussianReal m (s ^ 2).toNNReal (Set.Ioi E) ^ k) *
        ∫⁻ t in S ∩ Set.Ico e0 E, C t ∂gaussianReal m (s ^ 2).toNNReal) := by
  classical
  have hM : Nonempty PfnOut := ⟨⟨[], 0, 0⟩⟩
  set w : ℝ × ℝ × Int × Int := (J p.al i, J p.ah j, a, b) with hw
  have hv := setting_regular h
  obtain ⟨h1, h2, _⟩ := setting_tke h
  obtain ⟨ml, mh, e1, e2, hq⟩ := h.masses
  let mM : MeasurableSpace PfnOut := ⊥
  obtain ⟨r1, r2⟩ := loop_reg hv h.boost fuel h1 h2 e1 e2 fuel
  obtain ⟨p1, p2⟩ := reg_pair T hd hAm c.ac c.zc
  have hn := watch_niceIn hf hS w
  have hproj : Measurable fun y : ℝ × Exc ℝ × PfnOut => (y.1, y.2.1) := measurable_fst.prodMk (measurable_fst.comp measurable_snd)
  have jm := hn.jm.comp hproj
  have lo : ∀ y : ℝ × Exc ℝ × PfnOut, Local (ofSets (watch g p S w i j a b ql qh cl ch (y.1, y.2.1))) := fun y => local_ofSets (hn.nice _)
  -- the program that watches
  have s1 : stream {ω | ∃ k x, event g v amu T fuel a0 c sl sh st (pre ω k) = .ok (x, []) ∧ x.f.p = p ∧ x.f.tke ∈ S ∧
        x.f.x.spins = some w ∧ ql.Shows x.hl x.l ∧ qh.Shows x.hh x.h} =
      probIn (watcher g v T fuel a0 c p S w i j a b ql qh cl ch) Set.univ := by
    unfold probIn
    apply stream_congr
    intro ω hω
    simp only [Set.mem_ofPred_eq, Set.mem_univ, and_true]
    refine exists_congr fun k => (watcher_at h hf hS hJ amu T hd hAm hl hh sl sh hts hω k).trans ?_
    exact ⟨fun hx => ⟨(), hx⟩, fun ⟨_, hx⟩ => hx⟩
  rw [s1]
  unfold watcher
  rw [probIn_bind_fixed p1 p2 p ?_ ?_]
  rotate_left
  · rw [if_pos rfl]
    have sm := sm_bind r1 r2 jm
    have : {ω : ℕ → ℝ | ∃ n b', (tkeLoop v fuel a0 c p fuel >>= fun y => ofSets (watch g p S w i j a b ql qh cl ch (y.1, y.2.1))) (pre ω n) =
        .ok (b', []) ∧ b' ∈ (Set.univ : Set Unit)} = ⋃ n, {ω | ∃ b' ∈ (Set.univ : Set Unit),
          outAt (tkeLoop v fuel a0 c p fuel >>= fun y => ofSets (watch g p S w i j a b ql qh cl ch (y.1, y.2.1))) n ω = some b'} := by
      ext ω
      simp only [Set.mem_ofPred_eq, Set.mem_iUnion, outAt_eq, At]
      exact ⟨fun ⟨n, y, h3, h4⟩ => ⟨n, y, h4, h3⟩, fun ⟨n, y, h3, h4⟩ => ⟨n, y, h4, h3⟩⟩
    rw [this]
    exact MeasurableSet.iUnion fun n => sm n _ MeasurableSet.univ
  · intro p' l b' l' hr _
    by_contra hne
    rw [if_neg hne] at hr
    cases hr
  rw [if_pos rfl, probIn_bind r1 r2 lo jm MeasurableSet.univ]
  congr 1
  -- the integral over the loop
  set F : ℝ × Exc ℝ → ENNReal := fun y => probIn (ofSets (watch g p S w i j a b ql qh cl ch y)) Set.univ with hFd
  have hF : Measurable F := measurable_probIn (fun y => local_ofSets (hn.nice y)) hn.jm MeasurableSet.univ
  refine (loop_integral h fuel fuel hF).trans ?_
  congr 1
  rw [← lintegral_indicator measurableSet_Ico, ← lintegral_indicator (hS.inter measurableSet_Ico)]
  apply lintegral_congr
  intro t
  simp only [Set.indicator_apply, Set.mem_inter_iff]
  obtain ⟨El, Eh, rl, rh, hch⟩ := hf.decays
  obtain ⟨Pl, Ph, tl, th, fl, fh, -⟩ := hf.flights
  have hFe : ∀ x, F (t, x) = if t ∈ S ∧ x.spins = some w ∧ x.ul ≠ 0 ∧ x.uh ≠ 0 then
      stream (⋃ k, bothSets g p i j a b ql qh cl ch x k) else 0 := by
    intro x
    simp only [hFd]
    rw [prob_ofSets (hn.nice _)]
    unfold watch
    dsimp only
    split
    · rfl
    · simp
  by_cases ht : t ∈ Set.Ico e0 E
  swap
  · rw [if_neg ht, if_neg (fun hc => ht hc.2)]
  rw [if_pos ht]
  by_cases hs : t ∈ S
  swap
  · rw [if_neg (fun hc => hs hc.1)]
    simp only [hFe, hs, false_and, if_false, lintegral_zero]
  rw [if_pos ⟨hs, ht⟩]
  have htxe : 0 ≤ E - t := by linarith [ht.2]
  have le := local_excite hv fuel p (E - t) q
  have se := sm_excite hv fuel p E q t
  by_cases hg : ∃ u bl bh, Shared v fuel p (E - t) u bl bh ∧ u.1 ≠ 0 ∧ u.2 ≠ 0
  · obtain ⟨u, bl, bh, hsh, n1, n2⟩ := hg
    obtain ⟨c1, c2, -, -⟩ := hch t hs ht.1 ht.2.le u bl bh hsh n1 n2
    have hconst : ∀ᵐ x ∂law (excite v fuel p (E - t) q), F (t, x) = Set.indicator {x : Exc ℝ | x.spins = some w}
        (fun _ => ql.chance { g.par p.zl p.al with chain := cl } u.1 i a * qh.chance { g.par p.zh p.ah with chain := ch } u.2 j b) x := by
      have hnull : law (excite v fuel p (E - t) q) {x | ¬ (x.ul = u.1 ∧ x.uh = u.2)} = 0 := by
        have hms : MeasurableSet {x : Exc ℝ | ¬ (x.ul = u.1 ∧ x.uh = u.2)} :=
          ((measurableSet_eq_fun measurable_ul measurable_const).inter (measurableSet_eq_fun measurable_uh measurable_const)).compl
        rw [law_apply le se hms]
        unfold probIn
        refine (congrArg stream ?_).trans measure_empty
        ext ω
        simp only [Set.mem_ofPred_eq, Set.mem_empty_iff_false, iff_false, not_exists, not_and]
        intro k x hx hc
        obtain ⟨u', bl', bh', w', hsh', rfl⟩ := excite_run h.exp htxe hx
        have : u' = u := by
          have := hsh'.1.symm.trans hsh.1
          simpa using this
        subst this
        exact hc rfl rfl
      have : ∀ᵐ x ∂law (excite v fuel p (E - t) q), x.ul = u.1 ∧ x.uh = u.2 := hnull
      filter_upwards [this] with x hx
      rw [hFe, Set.indicator_apply]
      simp only [hs, hx.1, hx.2, n1, n2, ne_eq, not_false_eq_true, and_true, true_and, Set.mem_ofPred_eq]
      split
      · unfold bothSets
        rw [stream_followed ((emit_niceIn rl fl a).nice _) ((emit_niceIn rh fh b).nice _), hx.1, hx.2, emit_chance (Ready.below rl c1) fl,
          emit_chance (Ready.below rh c2) fh]
      · rfl
    rw [lintegral_congr_ae hconst, lintegral_indicator (measurable_spins w), setLIntegral_const, law_apply le se (measurable_spins w),
      hC t hs ht.1 ht.2 u bl bh hsh n1 n2, mul_comm]
    congr 1
    rw [← C108_joint v h.exp h.nj fuel p (E - t) q htxe u hsh.1 bl bh hsh.2.1 hsh.2.2.1 hsh.2.2.2.1 hsh.2.2.2.2 J hJ P hP i j hi hj a b ha hb]
    unfold probIn prob
    congr 1
    ext ω
    simp only [Set.mem_ofPred_eq]
    constructor
    · rintro ⟨k, x, g1, g2⟩
      obtain ⟨u', bl', bh', w', hsh', rfl⟩ := excite_run h.exp htxe g1
      have : u' = u := by
        have := hsh'.1.symm.trans hsh.1
        simpa using this
      subst this
      simp only at g2
      rw [g2] at g1
      exact ⟨k, g1⟩
    · rintro ⟨k, g1⟩
      exact ⟨k, _, g1, rfl⟩
  · rw [hC0 t hs ht.1 ht.2 hg]
    have hz : ∀ᵐ x ∂law (excite v fuel p (E - t) q), F (t, x) = 0 := by
      have hms : MeasurableSet {x : Exc ℝ | ¬ F (t, x) = 0} := ((hF.comp measurable_prodMk_left) (measurableSet_singleton 0)).compl
      show law (excite v fuel p (E - t) q) {x | ¬ F (t, x) = 0} = 0
      rw [law_apply le se hms]
      unfold probIn
      refine (congrArg stream ?_).trans measure_empty
      ext ω
      simp only [Set.mem_ofPred_eq, Set.mem_empty_iff_false, iff_false, not_exists, not_and]
      intro k x hx hc
      obtain ⟨u', bl', bh', w', hsh', rfl⟩ := excite_run h.exp htxe hx
      rw [hFe] at hc
      split at hc
      · next h0 => exact hg ⟨u', bl', bh', hsh', h0.2.2.1, h0.2.2.2⟩
      · exact hc rfl
    rw [lintegral_congr_ae hz, lintegral_zero]

/-! ## Example -/

namespace WholeDemo

/-- Neutrons are bound by ten units; every nucleus has two levels. -/
noncomputable def cfg : Cfg := ⟨c109Kin, ⟨fun _ _ => .ok 0, 10, fun _ _ => PathDemo.n0.levels, 10⟩, fun _ _ => PathDemo.par, 10, 50, 50⟩

noncomputable def single (z a : Int) : Nuc ℝ := ⟨z, a, PathDemo.n0.levels, 0, false, 1⟩

theorem single_chain (z a : Int) {e : ℝ} (he : e ≤ 10) (j p : Int) : IsChain ⟨cfg.tb, PathDemo.par, z, a, e, j, p⟩ [single z a] := by
  refine ⟨0, fun _ => 0, ?_, ?_⟩
  · simp [totalNeutrons, countOpen, cfg, bind, Res.bind, pure, he]
  · simp [initSystem, masses, initLoop, cfg, bind, Res.bind, pure, single]

theorem single_chained (z a : Int) : Chained { PathDemo.par with chain := [single z a] } (1 / 2) where
  spins := zero_lt_one
  width := zero_lt_one
  room := by show 1 < 50; norm_num
  grid := ⟨4, by show 4 < 10; norm_num, by show (1 / 2 : ℝ) < 1 * _; norm_num⟩
  levels := by
    intro x hx
    obtain rfl : x = single z a := by simpa using hx
    exact ⟨by simp [single, PathDemo.n0], by norm_num [Grid.elmax, single, PathDemo.n0]⟩
  other := by
    intro n x hx
    rcases n with _ | n
    · cases hx
      exact zero_ne_one
    · cases hx
  daughter := by
    intro x hx hs
    obtain rfl : x = single z a := by simpa using hx
    cases hs
  level := by
    intro x hx l hl
    obtain rfl : x = single z a := by simpa using hx
    exact (PathDemo.chained 4 le_rfl).level PathDemo.n0 (List.mem_cons_self ..) l hl
  phys := fun _ _ => LawDemo.ph_nonneg
  photon := by
    intro n x b mx mb p j e hn hp hj0 hj1 _ _
    have hj : j = 0 := by
      have : j < ((1 : Nat) : Int) := hj1
      omega
    have ha : x = single z a := by
      rcases n with _ | n
      · cases hn; rfl
      · cases hn
    subst ha
    exact PathDemo.photon_pos (a := PathDemo.n0) (b := b) (ma := mx) (mb := mb) (.inl rfl) hp hj

/-- A photon in the directions `T`. -/
def photon (T : Set V3) : Ask := ⟨RunsDemo.by1 false, [], [T]⟩

/-- A conversion electron. -/
def electron : Ask := ⟨RunsDemo.by1 true, [], []⟩

theorem ready (z a : Int) (conv : Bool) : HF.Ready 100 { PathDemo.par with chain := [single z a] } (1 / 2) (0 : Nat) (RunsDemo.by1 conv) :=
  ⟨single_chained z a, PathDemo.measurable, ⟨le_rfl, by show (0 : Int) < 1; norm_num⟩, ⟨single z a, rfl, PathDemo.proper,
    by simp [RunsDemo.by1, Branching.start, single, PathDemo.n0], .inl le_rfl⟩, by simp [RunsDemo.by1], by simp [RunsDemo.by1, Branching.start, PathDemo.par]⟩

theorem flies (z a : Int) (ha : 97 ≤ a) (conv : Bool) {gs : List (Set V3)} (h1 : gs.length = if conv then 0 else 1)
    (h2 : ∀ T ∈ gs, MeasurableSet T) : Flies cfg { PathDemo.par with chain := [single z a] } z a 10000 1 ⟨RunsDemo.by1 conv, [], gs⟩ where
  circle := rfl
  neutron := by norm_num [Const.mn, cfg, c109Kin]
  masses := by
    intro i hi
    simp [neutrons, RunsDemo.by1] at hi
  mass := ⟨a * 931 + 0, rfl⟩
  slow := by
    refine ⟨(a - (0 : Nat) : Int) * 931 + 0, rfl, ?_⟩
    have : (97 : ℝ) ≤ a := by exact_mod_cast ha
    simp only [neutrons, RunsDemo.by1]
    norm_num
    linarith
  speed := by norm_num
  energy := by simp [RunsDemo.by1]
  kinds := by simp [RunsDemo.by1]
  down := by
    intro n hn i l hl b hb l1 hl1
    obtain rfl : n = single z a := by simpa using hn
    have hl : ([⟨0, 2, 1, 0, []⟩, ⟨1 / 2, 2, 1, 0, [⟨0, 1, 9 / 10⟩]⟩] : List (Level ℝ))[i]? = some l := hl
    have hl1 : ([⟨0, 2, 1, 0, []⟩, ⟨1 / 2, 2, 1, 0, [⟨0, 1, 9 / 10⟩]⟩] : List (Level ℝ))[b.fstate]? = some l1 := hl1
    rcases i with _ | _ | i
    · cases hl
      simp at hb
    · cases hl
      simp only [List.mem_singleton] at hb
      subst hb
      cases hl1
      norm_num
    · cases hl
  delay := fun r h _ => h.le
  count := by cases conv <;> simp_all [neutrons, Whole.photons, RunsDemo.by1]
  fits := by cases conv <;> simp [neutrons, Whole.photons, electrons, RunsDemo.by1, cfg]
  sets := ⟨by simp, h2⟩

/-- The fragments move with momenta below ten thousand. -/
theorem momenta {t : ℝ} (ht : t ≤ 200) {l l' : List ℝ} {m : PfnOut} {k : Int} (h : c109Env.boost t c109Pair k l = .ok (m, l')) :
    lenSq m.light ≤ 10000 ^ 2 ∧ lenSq m.heavy ≤ 10000 ^ 2 := by
  have h : boostPfn c109Kin { (⟨94, 237, 0, 0, 97, 40, 140, 54, 0, [], none, none⟩ : PfnIn) with tke := t } l = .ok (m, l') := h
  unfold boostPfn at h
  obtain ⟨p0, s1, g1, h⟩ := Rnd.bind_ok.mp h
  obtain ⟨-, hp0, -⟩ := sqrtR_ok.mp g1
  have hp0 : p0 = 0 := by
    rw [hp0]
    simp
  subst hp0
  obtain ⟨x, s2, g2, h⟩ := Rnd.bind_ok.mp h
  obtain ⟨y, s3, g3, h⟩ := Rnd.bind_ok.mp h
  obtain ⟨mc, s4, g4, h⟩ := Rnd.bind_ok.mp h
  obtain ⟨ml, s5, g5, h⟩ := Rnd.bind_ok.mp h
  obtain ⟨mh, s6, g6, h⟩ := Rnd.bind_ok.mp h
  obtain ⟨f, s7, g7, h⟩ := Rnd.bind_ok.mp h
  obtain ⟨rfl, -⟩ := Rnd.pure_ok.mp h
  obtain ⟨rfl, -⟩ := Rnd.pure_ok.mp g2
  obtain ⟨rfl, -⟩ := Rnd.pure_ok.mp g3
  have e5 := (Rnd.lift_ok.mp g5).1
  have e6 := (Rnd.lift_ok.mp g6).1
  have hml : ml = 97 * 931 := by
    simp [Const.mass, c109Kin] at e5
    linarith
  have hmh : mh = 140 * 931 := by
    simp [Const.mass, c109Kin] at e6
    linarith
  obtain ⟨-, -, -, -, hsum, n, hn, pf, -, hpf, hl⟩ := split_ok g7
  have hz : ∀ i, (![0, 0, 0] : V3) i = 0 := by intro i; fin_cases i <;> rfl
  simp only [hz] at hsum hl
  have hnz : nsq (![0, 0, 0] : V3) = 0 := by simp [nsq]
  rw [hnz, hml, hmh] at hpf
  have hlen : lenSq f.1 = pf * pf := by
    simp only [lenSq, hl, mul_zero, zero_div, add_zero]
    have : pf * pf * nsq n = pf * pf := by rw [hn, mul_one]
    rw [← this]
    unfold nsq
    ring
  have hlen2 : lenSq f.2 = lenSq f.1 := by
    have : ∀ i, f.2 i = - f.1 i := fun i => by linarith [hsum i]
    simp only [lenSq, this]
    ring
  have hb : pf * pf ≤ 10000 ^ 2 := by
    rw [hpf]
    norm_num
    linarith
  exact ⟨by rw [hlen]; exact hb, by rw [hlen2, hlen]; exact hb⟩

/-- Kinetic energies that leave each fragment between a quarter and a half. -/
theorem fits (T : Set V3) (hT : MeasurableSet T) (a b : Int) : Fits cfg c109Env 5 237 ⟨94, 237, 200, 0, 0⟩ c109Pair 200 0 (Set.Icc 199 (399 / 2)) 100
    0 0 a b (photon T) electron [single 40 97] [single 54 140] where
  decays := by
    refine ⟨1 / 2, 1 / 2, ready 40 97 false, ready 54 140 true, ?_⟩
    intro t ht _ _ u bl bh hsh _ _
    obtain ⟨bl', bh', hs'⟩ := c109_share t (by linarith [ht.1]) (by linarith [ht.2])
    have : u = ((200 - t) / 2, (200 - t) / 2) := by
      have := hsh.1.symm.trans hs'.1
      simpa using this
    subst this
    have h1 := ht.1
    have hu : (200 - t) / 2 ≤ 1 / 2 := by linarith
    exact ⟨hu, hu, single_chain 40 97 (by linarith) _ _, single_chain 54 140 (by linarith) _ _⟩
  flights := ⟨10000, 10000, 1, 1, flies 40 97 (by norm_num) false rfl (by simpa using hT), flies 54 140 (by norm_num) true rfl (by simp),
    fun t ht l m l' h => momenta (by linarith [ht.2]) h⟩

/-- A neutron below one unit into `S`, then a photon into `T`. -/
def both (S T : Set V3) : Ask := ⟨⟨1, [(.neutron, Set.Ioo 0 1), (.gamma, Set.Ioi 0)], []⟩, [S], [T]⟩

theorem both_ready (S T : Set V3) : JobReady 100 RunsDemo.high [PathDemo.n0, PathDemo.n1] (both S T).w :=
  ⟨RunsDemo.high_chain, PathDemo.chained 4 le_rfl, PathDemo.measurable, ⟨le_rfl, by decide⟩, ⟨PathDemo.n1, rfl, RunsDemo.ground_proper,
    by simp [both, Branching.start, PathDemo.n1], .inl le_rfl⟩, by simp [both, measurableSet_Ioo, measurableSet_Ioi],
    by simp [both, Branching.start, RunsDemo.high, PathDemo.par]⟩

theorem both_flies {S T : Set V3} (hS : MeasurableSet S) (hT : MeasurableSet T) :
    Flies cfg { RunsDemo.high.par with chain := [PathDemo.n0, PathDemo.n1] } 50 132 1000 1 (both S T) where
  circle := rfl
  neutron := by norm_num [Const.mn, cfg, c109Kin]
  masses := by
    intro i hi
    have hi : i < 1 := hi
    obtain rfl : i = 0 := by omega
    exact ⟨_, rfl, by norm_num [Const.mn, cfg, c109Kin]⟩
  mass := ⟨_, rfl⟩
  slow := by
    refine ⟨(131 : Int) * 931 + 0, rfl, ?_⟩
    have h1 : √(2 * cfg.k.mn * 1) ≤ 100 := by
      rw [Real.sqrt_le_left (by norm_num)]
      norm_num [Const.mn, cfg, c109Kin]
    have h2 : neutrons (both S T).w = 1 := rfl
    rw [h2]
    push_cast
    linarith
  speed := by norm_num
  energy := by
    intro c hc e he
    simp only [both, List.mem_cons, List.not_mem_nil, or_false] at hc
    rcases hc with rfl | rfl
    · exact ⟨he.1, fun _ => he.2.le⟩
    · exact ⟨he, fun h => by cases h⟩
  kinds := by simp [both]
  down := by
    intro n hn i l hl b hb l1 hl1
    rcases PathDemo.mem hn with rfl | rfl
    · have hl : ([⟨0, 2, 1, 0, []⟩, ⟨1 / 2, 2, 1, 0, [⟨0, 1, 9 / 10⟩]⟩] : List (Level ℝ))[i]? = some l := hl
      have hl1 : ([⟨0, 2, 1, 0, []⟩, ⟨1 / 2, 2, 1, 0, [⟨0, 1, 9 / 10⟩]⟩] : List (Level ℝ))[b.fstate]? = some l1 := hl1
      rcases i with _ | _ | i
      · cases hl
        simp at hb
      · cases hl
        simp only [List.mem_singleton] at hb
        subst hb
        cases hl1
        norm_num
      · cases hl
    · have hl : ([⟨0, 1, 1, 0, []⟩] : List (Level ℝ))[i]? = some l := hl
      rcases i with _ | i
      · cases hl
        simp at hb
      · cases hl
  delay := fun r h _ => h.le
  count := ⟨rfl, rfl⟩
  fits := by simp [neutrons, Whole.photons, electrons, both, cfg]
  sets := ⟨by simpa [both] using hS, by simpa [both] using hT⟩

end WholeDemo

/-- Tin-132 moving along the axis emits a neutron into `S` and a photon into `T`. -/
example (S T : Set V3) (hS : MeasurableSet S) (hT : MeasurableSet T) (e : Nat → ℝ) (hs : List (Hist ℝ)) (jm : Nat → Int) :
    stream {ω | ∃ k x, emit WholeDemo.cfg RunsDemo.high ![0, 0, 1000] e ⟨hs, List.replicate 100 7, jm⟩ (pre ω k) = .ok (x, []) ∧
        (WholeDemo.both S T).Shows x.1.hs x.2} =
      decayChance PathDemo.par 4 0 (-1) (WholeDemo.both S T).w * (solid S * solid T) := by
  have := C127_fragment WholeDemo.cfg RunsDemo.high [PathDemo.n0, PathDemo.n1] 1000 1 (WholeDemo.both S T) (WholeDemo.both_ready S T)
    (WholeDemo.both_flies hS hT) ![0, 0, 1000] (by simp [lenSq]) e ⟨hs, List.replicate 100 7, jm⟩ (by simp)
  rw [this]
  simp only [Ask.chance, WholeDemo.both, List.map_cons, List.map_nil, List.prod_cons, List.prod_nil, mul_one]
  rfl

/-- Zirconium-97 emits a photon into `T` and xenon-140 a conversion electron, with little excitation energy. -/
example (T : Set V3) (hT : MeasurableSet T) (tab : Tab ℝ) (hd : 0 ≤ tab.dZ) (hA : tab.amin ≤ tab.amax) (sl sh : Nat → ℝ) (hs : List (Hist ℝ))
    (jm : Nat → Int) (B : ℝ → ℝ × ℝ) (hB : ∀ t ∈ Set.Icc (199 : ℝ) (399 / 2),
      Shared c109Env 5 c109Pair (200 - t) ((200 - t) / 2, (200 - t) / 2) (B t).1 (B t).2)
    (J : Int → Nat → ℝ) (hJ : ∀ A k, J A k = if A % 2 = 0 then (k : ℝ) else (k : ℝ) + 1 / 2)
    (P : Int → ℝ → Nat → ℝ) (hP : ∀ A B k, P A B k = (2 * J A k + 1) * Real.exp (-(J A k * (J A k + 1)) / (2 * B))) :
    stream {ω | ∃ k x, event WholeDemo.cfg c109Env 931 tab 5 237 ⟨94, 237, 200, 0, 0⟩ sl sh ⟨hs, List.replicate 100 7, jm⟩ (pre ω k) =
        .ok (x, []) ∧ x.f.p = c109Pair ∧ x.f.tke ∈ Set.Icc 199 (399 / 2) ∧ x.f.x.spins = some (J 97 0, J 140 0, 1, -1) ∧
        (WholeDemo.photon T).Shows x.hl x.l ∧ WholeDemo.electron.Shows x.hh x.h} =
      prob (pair tab 237 94) c109Pair * ((∑ k ∈ Finset.range 5, gaussianReal 170 (10 ^ 2 : ℝ).toNNReal (Set.Ioi 200) ^ k) *
        ∫⁻ t in Set.Icc 199 (399 / 2) ∩ Set.Ico 0 200, ENNReal.ofReal (1 / 4 * (P 97 (B t).1 0 / ∑ k ∈ Finset.range 50, P 97 (B t).1 k) *
            (P 140 (B t).2 0 / ∑ k ∈ Finset.range 50, P 140 (B t).2 k)) *
          ((WholeDemo.photon T).chance { PathDemo.par with chain := [WholeDemo.single 40 97] } ((200 - t) / 2) 0 1 *
            WholeDemo.electron.chance { PathDemo.par with chain := [WholeDemo.single 54 140] } ((200 - t) / 2) 0 (-1))
          ∂gaussianReal 170 (10 ^ 2 : ℝ).toNNReal) := by
  refine C127_event WholeDemo.cfg c109Env 931 tab 5 237 ⟨94, 237, 200, 0, 0⟩ c109Pair 200 200 170 10 0 c109_setting hd hA ⟨0, rfl⟩ ⟨0, rfl⟩ J hJ
    P hP 0 0 (by norm_num [c109Env]) (by norm_num [c109Env]) 1 (-1) (.inl rfl) (.inr rfl) _ measurableSet_Icc 100 (WholeDemo.photon T)
    WholeDemo.electron [WholeDemo.single 40 97] [WholeDemo.single 54 140] (WholeDemo.fits T hT 1 (-1)) _ ?_ ?_ sl sh _ (by simp)
  · intro t ht _ _ u bl bh hsh _ _
    have h0 := hB t ht
    have hu : u = ((200 - t) / 2, (200 - t) / 2) := by
      have := hsh.1.symm.trans h0.1
      simpa using this
    subst hu
    have h1 : bl = (B t).1 := by
      have := hsh.2.1.symm.trans h0.2.1
      simpa using this
    have h2 : bh = (B t).2 := by
      have := hsh.2.2.1.symm.trans h0.2.2.1
      simpa using this
    rw [h1, h2]
    rfl
  · intro t ht _ h200 hc
    refine absurd ⟨_, _, _, hB t ht, ?_, ?_⟩ hc <;> · have := ht.2; show (200 - t) / 2 ≠ 0; intro h; linarith

end CGMF.Props

import Verif.Spec.Whole
import Verif.Proofs.Runs
import Verif.Proofs.Fragment
import Verif.Props.Isotropy
import Mathlib.Analysis.InnerProductSpace.PiL2

/-! # The decay of one fragment with the directions of its particles -/

namespace CGMF.Whole

open CGMF.MC CGMF.Kin CGMF.HF CGMF.Isotropy CGMF.Law CGMF.Branching CGMF.Props MeasureTheory

/-! ## Energies of the particles -/

theorem walk_pos {levels : List (Level ℝ)} {c : Nat}
    (hd : ∀ (i : Nat) (l : Level ℝ), levels[i]? = some l → ∀ b ∈ l.branches, ∀ l1, levels[b.fstate]? = some l1 → l1.energy < l.energy)
    {i f : Nat} {hs : List (Hist ℝ)} (h : Walk levels c i hs f) : ∀ x ∈ hs, 0 < x.ep := by
  induction h with
  | nil => simp
  | @snoc j hs l l1 b id hw h1 h2 h3 h4 ih =>
    intro x hx
    rcases List.mem_append.mp hx with hx | hx
    · exact ih x hx
    · rw [List.mem_singleton] at hx
      subst hx
      exact sub_pos.mpr (hd _ _ h1 _ h2 _ h3)

/-- Photons and electrons that leave a level have positive energies. -/
theorem decay_pos {par : Par ℝ}
    (hd : ∀ n ∈ par.chain, ∀ (i : Nat) (l : Level ℝ), n.levels[i]? = some l → ∀ b ∈ l.branches, ∀ l1, n.levels[b.fstate]? = some l1 →
      l1.energy < l.energy) {st st' : St ℝ} {E : ℝ} {j p : Int} {s s' : List ℝ} (h : decay par st E j p s = .ok (st', s')) :
    ∀ x ∈ st'.hs.dropLast, x.mp.disc = true → 0 < x.ep := by
  have casc : ∀ {c i f : Nat} {st st' : St ℝ} {s s' : List ℝ}, (∀ x ∈ st.hs, x.mp.disc = true → 0 < x.ep) →
      cascade par c i st s = .ok ((f, st'), s') → ∀ x ∈ st'.hs, x.mp.disc = true → 0 < x.ep := by
    intro c i f st st' s s' h0 h
    obtain ⟨n, new, hn, e, hw, -⟩ := cascade_walk h
    rw [e]
    intro x hx hdx
    rcases List.mem_append.mp hx with hx | hx
    · exact h0 x hx hdx
    · exact walk_pos (hd n (List.mem_of_getElem? hn)) hw x hx
  obtain ⟨n0, m0, h1, h2, h⟩ := decay_ok h
  rcases h with ⟨hc, f, st1, h3, h4⟩ | ⟨hc, pj, h3, h4⟩
  · obtain ⟨-, -, n, l, -, -, rfl⟩ := marker_ok h4
    simp only [List.dropLast_concat]
    exact casc (by simp) h3
  · obtain ⟨st1, x, s1, f, st2, g1, g2, g3⟩ := historyLoop_ok h4
    obtain ⟨-, -, n, l, -, -, rfl⟩ := marker_ok g3
    simp only [List.dropLast_concat]
    obtain ⟨-, -, ys, r1, r2⟩ := loop_entries g1 rfl
    have e1 : ∀ x ∈ st1.hs, x.mp.disc = true → 0 < x.ep := by
      intro x hx hdx
      rw [r1] at hx
      simp only [List.nil_append] at hx
      rw [(r2 x hx).1] at hdx
      cases hdx
    rcases g2 with ⟨-, -, rfl, -⟩ | ⟨-, g2⟩
    · exact e1
    · exact casc e1 g2

theorem energies_append (id : Pid) (a b : List (Hist ℝ)) : energies id (a ++ b) = energies id a ++ energies id b := by
  unfold energies
  rw [List.filter_append, List.map_append]

theorem matched_count {cs : List (Pid × Set ℝ)} {ys : List (Hist ℝ)} (h : Matches cs ys) (id : Pid) :
    (energies id ys).length = (cs.filter fun c => c.1 = id).length := by
  induction h with
  | nil => rfl
  | @cons c y cs ys h1 h2 ih =>
    rw [energies_cons, List.length_append, ih, h1.1, List.filter_cons]
    by_cases hc : c.1 = id <;> simp [hc]
    omega

theorem matched_mem {cs : List (Pid × Set ℝ)} {ys : List (Hist ℝ)} (h : Matches cs ys) : ∀ y ∈ ys, ∃ c ∈ cs, y.id = c.1 ∧ y.ep ∈ c.2 := by
  induction h with
  | nil => simp
  | @cons c y cs ys h1 h2 ih =>
    intro z hz
    rcases List.mem_cons.mp hz with rfl | hz
    · exact ⟨c, by simp, h1⟩
    · obtain ⟨c', h3, h4⟩ := ih z hz
      exact ⟨c', by simp [h3], h4⟩

theorem cascade_count {c : Nat} : ∀ {q : List (Nat × Bool)} {zs : List (Hist ℝ)},
    zs.map (fun h => (h.mp.disc, h.mp.n, h.mp.k, h.id)) = q.map (fun x => (true, c, x.1, if x.2 then Pid.ic else Pid.gamma)) →
    (∀ z ∈ zs, z.mp.disc = true) ∧ (energies .neutron zs).length = 0 ∧ (energies .gamma zs).length = (q.filter fun x => x.2 = false).length ∧
      (energies .ic zs).length = (q.filter fun x => x.2 = true).length
  | [], [], _ => ⟨by simp, rfl, rfl, rfl⟩
  | [], _ :: _, h => by simp at h
  | _ :: _, [], h => by simp at h
  | (u, b) :: q, z :: zs, h => by
    simp only [List.map_cons, List.cons.injEq, Prod.mk.injEq] at h
    obtain ⟨i1, i2, i3, i4⟩ := cascade_count h.2
    refine ⟨?_, ?_, ?_, ?_⟩
    · intro y hy
      rcases List.mem_cons.mp hy with rfl | hy
      · exact h.1.1
      · exact i1 y hy
    · rw [energies_cons, List.length_append, i2, h.1.2.2.2]
      cases b <;> rfl
    · rw [energies_cons, List.length_append, i3, h.1.2.2.2, List.filter_cons]
      cases b <;> simp
      omega
    · rw [energies_cons, List.length_append, i4, h.1.2.2.2, List.filter_cons]
      cases b <;> simp
      omega

/-- The record of a history as asked for: so many neutrons and photons, with energies as asked for. -/
theorem recorded {g : Cfg} {par : Par ℝ} {z a : Int} {P top : ℝ} {q : Ask} (hf : Flies g par z a P top q) {st st' : St ℝ} {E : ℝ}
    {j p : Int} {s s' : List ℝ} (hs : ∀ r ∈ s, 0 < r ∧ r ≤ 1) (h : decay par st E j p s = .ok (st', s'))
    (hr : Records q.w.c q.w.cs q.w.q st'.hs) :
    ∃ r, record g.nn g.ng g.ni st' = .ok r ∧ r.n.length = neutrons q.w ∧ (r.g.map Prod.fst).length = photons q.w ∧
      (∀ e ∈ r.n, 0 < e ∧ e ≤ top) ∧ ∀ e ∈ r.g.map Prod.fst, 0 < e := by
  have hpos := decay_pos hf.down h
  obtain ⟨t, st1, mk, ⟨-, -, ages, a1, a2, -, -⟩, hst⟩ := decay_aged hf.delay hs h
  obtain ⟨ys, zs, zz, e1, e2, e3, e4, -, -⟩ := hr
  obtain ⟨d1, d2, d3, d4⟩ := cascade_count e4
  have hdl : st'.hs.dropLast = ys ++ zs := by rw [e1, List.dropLast_concat]
  have hdl1 : st'.hs.dropLast = st1.hs := by rw [hst]; simp
  have hic : (energies .ic ys).length = 0 := by
    rw [matched_count e2, List.length_eq_zero_iff, List.filter_eq_nil_iff]
    intro c hc
    simpa using hf.kinds c hc
  have cn : (energies .neutron st'.hs.dropLast).length = neutrons q.w := by
    rw [hdl, energies_append, List.length_append, matched_count e2, d2]
    rfl
  have cg : (energies .gamma st'.hs.dropLast).length = photons q.w := by
    rw [hdl, energies_append, List.length_append, matched_count e2, d3]
    rfl
  have ci : (energies .ic st'.hs.dropLast).length = electrons q.w := by
    rw [hdl, energies_append, List.length_append, hic, d4, zero_add]
    rfl
  obtain ⟨r, hr⟩ := recordLoop_total (nn := g.nn) (ng := g.ng) (ni := g.ni) (ts := st'.ts) (hs := st'.hs.dropLast) (i := 0)
    (r := ⟨[], [], []⟩) (by
      intro k x hk
      rw [hdl1] at hk
      have hlt : k < ages.length := by rw [a1]; exact (List.getElem?_eq_some_iff.mp hk).1
      refine ⟨ages[k], ?_⟩
      have := (a2 k x ages[k] hk (List.getElem?_eq_getElem hlt)).1
      rw [hst, zero_add]
      exact this) (by simpa [cn] using hf.fits.1) (by simpa [cg] using hf.fits.2.1) (by simpa [ci] using hf.fits.2.2)
  obtain ⟨r1, r2, r3, -⟩ := recordLoop_ok hr
  simp only [List.nil_append, List.map_nil] at r1 r2 r3
  have hrec : record g.nn g.ng g.ni st' = .ok r := by
    unfold record
    rw [hr]
    simp only [Res.bind_ok]
    have l1 : r.n.length ≤ g.nn := by rw [r1, cn]; exact hf.fits.1
    have l2 : r.g.length ≤ g.ng := by
      have := congrArg List.length r2
      rw [List.length_map, cg] at this
      rw [this]; exact hf.fits.2.1
    rw [if_neg (by omega)]
    rfl
  have mem : ∀ id, ∀ e ∈ energies id st'.hs.dropLast, (0 < e) ∧ (id = .neutron → e ≤ top) := by
    intro id e he
    obtain ⟨x, hx, rfl⟩ := List.mem_map.mp he
    have hid : x.id = id := by simpa using (List.mem_filter.mp hx).2
    have hx0 := List.mem_of_mem_filter hx
    rw [hdl] at hx0
    rcases List.mem_append.mp hx0 with hy | hz
    · obtain ⟨c, hc, h1, h2⟩ := matched_mem e2 x hy
      obtain ⟨h3, h4⟩ := hf.energy c hc _ h2
      exact ⟨h3, fun hn => h4 (by rw [← h1, hid, hn])⟩
    · refine ⟨hpos x (List.mem_of_mem_filter hx) (d1 x hz), fun hn => ?_⟩
      exfalso
      have hm : x.ep ∈ energies .neutron zs := List.mem_map.mpr ⟨x, List.mem_filter.mpr ⟨hz, by simpa [hid] using hn⟩, rfl⟩
      rw [List.length_eq_zero_iff.mp d2] at hm
      cases hm
  refine ⟨r, hrec, by rw [r1, cn], by rw [r2, cg], ?_, ?_⟩
  · rw [r1]
    exact fun e he => ⟨(mem _ e he).1, (mem _ e he).2 rfl⟩
  · rw [r2]
    exact fun e he => (mem _ e he).1

/-! ## Momenta -/

/-- Length of a vector. -/
noncomputable def len (x : V3) : ℝ := √(lenSq x)

theorem len_eq (x : V3) : len x = ‖(WithLp.toLp 2 x : EuclideanSpace ℝ (Fin 3))‖ := by
  rw [EuclideanSpace.norm_eq, Fin.sum_univ_three]
  simp only [Real.norm_eq_abs, sq_abs]
  rfl

theorem len_add (x y : V3) : len (x + y) ≤ len x + len y := by
  rw [len_eq, len_eq, len_eq]
  exact norm_add_le _ _

theorem len_smul (c : ℝ) (x : V3) : len (c • x) = |c| * len x := by
  rw [len_eq, len_eq, WithLp.toLp_smul, norm_smul, Real.norm_eq_abs]

theorem neutron_len {k : Const} (hmn : 0 < k.mn) {z a : Int} {p p' : V3} {e : ℝ} {s s' : List ℝ} {x : Emit}
    (hm : ∃ m, k.mass z a = .ok m ∧ k.mn ≤ m) (h : neutronBoost k z a p e none s = .ok ((x, p'), s')) :
    len p' ≤ len p + √(2 * k.mn * e) := by
  obtain ⟨m, h1, -, -, h2, -, h3⟩ := Props.C35_momentum h
  obtain ⟨m', h4, h5⟩ := hm
  rw [h1] at h4
  cases h4
  have hm0 : 0 < m := by linarith
  have e1 : p' = ((m - k.mn) / m) • p + (-k.mn) • x.vcm := by
    funext i
    have := h3 i
    simp only [Pi.add_apply, Pi.smul_apply, smul_eq_mul]
    have e : (m - k.mn) / m * p i = (m - k.mn) * (p i / m) := by ring
    rw [e]
    linarith
  have e2 : lenSq x.vcm = 2 * e / k.mn := by
    unfold Spec.kinetic Spec.dot at h2
    rw [Fin.sum_univ_three] at h2
    unfold lenSq
    field_simp
    linarith
  have e3 : |(-k.mn)| * len x.vcm = √(2 * k.mn * e) := by
    rw [abs_neg, abs_of_pos hmn]
    unfold len
    rw [e2, ← Real.sqrt_sq hmn.le, ← Real.sqrt_mul (sq_nonneg _), Real.sqrt_sq hmn.le]
    congr 1
    field_simp
  rw [e1]
  refine (len_add _ _).trans ?_
  rw [len_smul, len_smul, e3]
  have hc : |(m - k.mn) / m| ≤ 1 := by
    rw [abs_le]
    have h0 : 0 ≤ (m - k.mn) / m := div_nonneg (by linarith) hm0.le
    exact ⟨by linarith, (div_le_one hm0).mpr (by linarith)⟩
  have : 0 ≤ len p := Real.sqrt_nonneg _
  nlinarith

theorem neutrons_len {k : Const} (hmn : 0 < k.mn) {z : Int} {top : ℝ} : ∀ (ns : List ℝ) (a : Int) (p : V3) (s : List ℝ) (x : List Emit × V3)
    (s' : List ℝ), (∀ e ∈ ns, 0 < e ∧ e ≤ top) → (∀ i : Nat, i < ns.length → ∃ m, k.mass z (a - i) = .ok m ∧ k.mn ≤ m) →
    boostNeutrons k z a p ns s = .ok (x, s') → len x.2 ≤ len p + ns.length * √(2 * k.mn * top) := by
  intro ns
  induction ns with
  | nil =>
    intro a p s x s' _ _ h
    obtain ⟨rfl, -⟩ := Rnd.pure_ok.mp (show (pure ([], p) : Rnd ℝ (List Emit × V3)) s = .ok (x, s') from h)
    simp
  | cons e ns ih =>
    intro a p s x s' he hm h
    obtain ⟨⟨y, p1⟩, s1, h1, h⟩ := Rnd.bind_ok.mp (show (neutronBoost k z a p e none >>= _) s = _ from h)
    obtain ⟨w, s2, h2, h⟩ := Rnd.bind_ok.mp h
    obtain ⟨rfl, -⟩ := Rnd.pure_ok.mp h
    have i1 := neutron_len hmn (by simpa using hm 0 (by simp)) h1
    have i2 := ih (a - 1) p1 s1 w s2 (fun e' h' => he e' (by simp [h'])) (by
      intro i hi
      obtain ⟨m, g1, g2⟩ := hm (i + 1) (by simpa using hi)
      refine ⟨m, ?_, g2⟩
      rw [← g1]
      congr 1
      push_cast
      ring) h2
    have i3 : √(2 * k.mn * e) ≤ √(2 * k.mn * top) := Real.sqrt_le_sqrt (by nlinarith [(he e (by simp)).2])
    rw [List.length_cons]
    push_cast
    linarith

/-! ## Directions -/

/-- The directions of the particles. -/
def dirsAt (q : Ask) (k : ℕ) : Set (ℕ → ℝ) :=
  if k = 2 * q.ns.length + 2 * q.gs.length then Dirs (q.ns ++ q.gs.map fun T => turn ⁻¹' T) else ∅

theorem dirs_dep : ∀ (Ss : List (Set V3)) (ω ω' : ℕ → ℝ), (∀ i < 2 * Ss.length, ω i = ω' i) → (ω ∈ Dirs Ss ↔ ω' ∈ Dirs Ss)
  | [], _, _, _ => Iff.rfl
  | S :: Ss, ω, ω', h => by
    simp only [Dirs, Set.mem_inter_iff, Set.mem_ofPred_eq, Set.mem_preimage]
    rw [h 0 (by simp), h 1 (by simp; omega)]
    refine and_congr_right fun _ => dirs_dep Ss _ _ fun i hi => ?_
    exact h (2 + i) (by simp only [List.length_cons]; omega)

theorem measurable_asked {q : Ask} (h : (∀ S ∈ q.ns, MeasurableSet S) ∧ ∀ S ∈ q.gs, MeasurableSet S) :
    ∀ S ∈ q.ns ++ q.gs.map fun T => turn ⁻¹' T, MeasurableSet S := by
  intro S hS
  rcases List.mem_append.1 hS with hS | hS
  · exact h.1 S hS
  · obtain ⟨T, hT1, rfl⟩ := List.mem_map.1 hS
    exact measurable_turn (h.2 T hT1)

theorem nice_dirs {q : Ask} (h : (∀ S ∈ q.ns, MeasurableSet S) ∧ ∀ S ∈ q.gs, MeasurableSet S) : Nice (dirsAt q) := by
  refine ⟨fun n => ?_, ?_, ?_⟩
  · unfold dirsAt
    split
    · exact measurable_dirs (measurable_asked h)
    · exact MeasurableSet.empty
  · intro n ω ω' hd
    unfold dirsAt
    split
    · next hn =>
      exact dirs_dep _ ω ω' fun i hi => hd i (by
        rw [List.length_append, List.length_map] at hi
        omega)
    · exact Iff.rfl
  · intro ω m n h1 h2
    unfold dirsAt at h1 h2
    split at h1
    · split at h2
      · omega
      · exact absurd h2 (Set.notMem_empty _)
    · exact absurd h1 (Set.notMem_empty _)

theorem stream_dirsAt {q : Ask} (h : (∀ S ∈ q.ns, MeasurableSet S) ∧ ∀ S ∈ q.gs, MeasurableSet S) :
    stream (⋃ k, dirsAt q k) = (q.ns.map solid).prod * (q.gs.map solid).prod := by
  have e : ⋃ k, dirsAt q k = Dirs (q.ns ++ q.gs.map fun T => turn ⁻¹' T) := by
    ext ω
    simp only [Set.mem_iUnion, dirsAt]
    constructor
    · rintro ⟨k, hk⟩
      split at hk
      · exact hk
      · exact absurd hk (Set.notMem_empty _)
    · exact fun hω => ⟨_, by rw [if_pos rfl]; exact hω⟩
  rw [e, stream_dirs (measurable_asked h), List.map_append, List.prod_append, solid_turned]

/-- The directions given to the particles of a record as asked for. -/
theorem boost_at {g : Cfg} {par : Par ℝ} {z a : Int} {P top : ℝ} {q : Ask} (hf : Flies g par z a P top q) {p : V3} (hp : lenSq p ≤ P ^ 2)
    {ns gs : List ℝ} (hn : ns.length = neutrons q.w) (hg : gs.length = photons q.w) (en : ∀ e ∈ ns, 0 < e ∧ e ≤ top)
    (eg : ∀ e ∈ gs, 0 < e) {ω : ℕ → ℝ} (hω : Inside ω) (k : ℕ) :
    (∃ o, boost g.k z a p ns gs (pre ω k) = .ok (o, []) ∧ List.Forall₂ (fun e S => unitDir e.vcm ∈ S) o.n q.ns ∧
      List.Forall₂ (fun g T => unitDir g.cm ∈ T) o.g q.gs) ↔ ω ∈ dirsAt q k := by
  obtain ⟨mf, hmf, hslow⟩ := hf.slow
  have hl1 : q.ns.length = ns.length := by rw [hf.count.1, hn]
  have hl2 : q.gs.length = gs.length := by rw [hf.count.2, hg]
  have hp0 : len p ≤ P := by
    unfold len
    rw [Real.sqrt_le_left hf.speed]
    exact hp
  have hmf0 : 0 < mf := by
    have := mul_nonneg (Nat.cast_nonneg (α := ℝ) (neutrons q.w)) (Real.sqrt_nonneg (2 * g.k.mn * top))
    have := hf.speed
    linarith
  obtain ⟨x, hx, hxS⟩ := neutrons_run hf.circle hf.neutron ns q.ns a p hl1 (fun e h => (en e h).1) (by
    intro i hi
    obtain ⟨m, h1, h2⟩ := hf.masses i (by rw [← hn]; exact hi)
    exact ⟨m, h1, by have := hf.neutron; linarith⟩) ω (pre (Law.shift (2 * ns.length) ω) (2 * gs.length)) hω
  have hlen : Real.sqrt (nsq x.2) < mf := by
    have e : nsq x.2 = lenSq x.2 := by unfold nsq lenSq; ring
    rw [e]
    have := neutrons_len hf.neutron ns a p _ _ _ en (by rw [hn]; exact hf.masses) hx
    rw [hn] at this
    unfold len at this hp0
    linarith
  obtain ⟨y, hy, hyT⟩ := photons_run hf.circle hmf0 (Real.sqrt_nonneg _) hlen gs q.gs hl2 eg (Law.shift (2 * ns.length) ω) []
    (inside_shift hω _)
  rw [List.append_nil] at hy
  obtain ⟨m, ha⟩ := hf.mass
  have hrun : boost g.k z a p ns gs (pre ω (2 * ns.length + 2 * gs.length)) = .ok (⟨x.1, y, x.2⟩, []) := by
    rw [pre_add]
    unfold boost
    rw [Rnd.bind_of_ok (Rnd.lift_ok.mpr ⟨ha, rfl⟩), Rnd.bind_of_ok hx, hn, Rnd.bind_of_ok (Rnd.lift_ok.mpr ⟨hmf, rfl⟩),
      Rnd.bind_of_ok (by rw [hn] at hy; exact hy)]
    rfl
  have hmem : ω ∈ Dirs (q.ns ++ q.gs.map fun T => turn ⁻¹' T) ↔ List.Forall₂ (fun e S => unitDir e.vcm ∈ S) x.1 q.ns ∧
      List.Forall₂ (fun g T => unitDir g.cm ∈ T) y q.gs := by
    rw [dirs_append, Set.mem_inter_iff, Set.mem_preimage, hl1, ← hxS, ← hyT]
  unfold dirsAt
  rw [hl1, hl2]
  constructor
  · rintro ⟨o, h1, h2⟩
    obtain ⟨rfl, rfl⟩ := at_unique (local_boost g.k z a p ns gs) (show ω ∈ At _ o k from h1) (show ω ∈ At _ _ _ from hrun)
    rw [if_pos rfl, hmem]
    exact h2
  · intro h
    split at h
    · next hk =>
      subst hk
      exact ⟨_, hrun, hmem.mp h⟩
    · exact absurd h (Set.notMem_empty _)

end CGMF.Whole

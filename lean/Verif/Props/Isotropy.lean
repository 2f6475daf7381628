import Verif.Proofs.Directions
import Verif.Props.Kinematics

/-!
# C100: particles and fragments are emitted isotropically

Probabilities refer to independent uniform random numbers (`Spec/Law.lean`); `solid S` is the share of all directions
that lie in `S` (`Spec/Isotropy.lean`).
-/

namespace CGMF.Props

open MeasureTheory Real CGMF.Law CGMF.Kin CGMF.Isotropy

/-- **C100.**  The directions of all neutrons and photons of a fragment, in the frame of the emitting nucleus, are
independent and each is uniform over the sphere.  `slow` asks that no run leaves the fragment with the speed of light. -/
theorem C100_particles {k : Const} (hk : k.twopi = 2 * π) (hmn : 0 < k.mn) {z a : Int} {p : V3} {ns gs : List ℝ} {mf : ℝ}
    (hn : ∀ e ∈ ns, 0 < e) (hg : ∀ e ∈ gs, 0 < e)
    (hm : ∀ i : Nat, i < ns.length → ∃ m, k.mass z (a - i) = .ok m ∧ m ≠ 0) (ha : ∃ m, k.mass z a = .ok m)
    (hf : k.massT z (a - ns.length) = .ok mf) (hmf : 0 < mf)
    (slow : ∀ s x s', boostNeutrons k z a p ns s = .ok (x, s') → lenSq x.2 < mf ^ 2)
    (Ss Ts : List (Set V3)) (hS : ∀ S ∈ Ss, MeasurableSet S) (hT : ∀ T ∈ Ts, MeasurableSet T)
    (hSl : Ss.length = ns.length) (hTl : Ts.length = gs.length) :
    probIn (boost k z a p ns gs) {b | List.Forall₂ (fun e S => unitDir e.vcm ∈ S) b.n Ss ∧
      List.Forall₂ (fun g T => unitDir g.cm ∈ T) b.g Ts} = (Ss.map solid).prod * (Ts.map solid).prod := by
  have key : probIn (boost k z a p ns gs) {b | List.Forall₂ (fun e S => unitDir e.vcm ∈ S) b.n Ss ∧
      List.Forall₂ (fun g T => unitDir g.cm ∈ T) b.g Ts} = stream (Dirs (Ss ++ Ts.map fun T => turn ⁻¹' T)) := by
    refine prob_run (local_boost k z a p ns gs) (n := 2 * ns.length + 2 * gs.length) fun ω hω => ?_
    rw [pre_add]
    obtain ⟨x, hx, hxS⟩ := neutrons_run hk hmn ns Ss a p hSl hn hm ω (pre (Law.shift (2 * ns.length) ω) (2 * gs.length)) hω
    have hlen : Real.sqrt (nsq x.2) < mf := by
      have : nsq x.2 = lenSq x.2 := by unfold nsq lenSq; ring
      rw [this, sqrt_lt' hmf]
      exact slow _ _ _ hx
    obtain ⟨y, hy, hyT⟩ := photons_run hk hmf (sqrt_nonneg _) hlen gs Ts hTl hg (Law.shift (2 * ns.length) ω) []
      (inside_shift hω _)
    rw [List.append_nil] at hy
    obtain ⟨m, ha⟩ := ha
    refine ⟨⟨x.1, y, x.2⟩, ?_, ?_⟩
    · unfold boost
      rw [Rnd.bind_of_ok (Rnd.lift_ok.mpr ⟨ha, rfl⟩), Rnd.bind_of_ok hx, Rnd.bind_of_ok (Rnd.lift_ok.mpr ⟨hf, rfl⟩),
        Rnd.bind_of_ok hy]
      rfl
    · rw [dirs_append, Set.mem_inter_iff, Set.mem_preimage, hSl, ← hxS, ← hyT]
      rfl
  rw [key, stream_dirs, List.map_append, List.prod_append, solid_turned]
  intro S h
  rcases List.mem_append.1 h with h | h
  · exact hS S h
  · obtain ⟨T, hT1, rfl⟩ := List.mem_map.1 h
    exact measurable_turn (hT T hT1)

/-- **C100.**  The same for a single neutron. -/
theorem C100_neutron {k : Const} (hk : k.twopi = 2 * π) (hmn : 0 < k.mn) {z a : Int} (p : V3) {ecm m : ℝ} (he : 0 < ecm)
    (hm : k.mass z a = .ok m) (hm0 : m ≠ 0) (S : Set V3) (hS : MeasurableSet S) :
    probIn (neutronBoost k z a p ecm none) {x | unitDir x.1.vcm ∈ S} = solid S := by
  rw [← solid_eq hS]
  refine prob_run (local_neutron k z a p ecm) (n := 2) fun ω hω => ?_
  have h1 := hω 1
  have hc : (2 * ω 1 - 1) * (2 * ω 1 - 1) ≤ 1 := by nlinarith
  have hv : 0 < 2 * ecm / k.mn := div_pos (by linarith) hmn
  obtain ⟨x, p', hx, hd, -, -⟩ := neutronBoost_run (k := k) (z := z) (a := a) (p := p) (ecm := ecm) (tab := none)
    (s := [ω 1]) (s1 := []) (r := ω 0) (c := 2 * ω 1 - 1) hm rfl hc hm0 hmn.ne' hv.le
  refine ⟨(x, p'), hx, ?_⟩
  show unitDir x.vcm ∈ S ↔ _
  rw [hd, unitDir_scale (sqrt_pos.2 hv) hc, hk]
  rfl

/-- **C100.**  Without an anisotropy coefficient the light fragment leaves the fissioning nucleus in a direction uniform
over the sphere, seen from that nucleus. -/
theorem C100_fragments {k : Const} (hk : k.twopi = 2 * π) {mc ml mh tke : ℝ} {p : V3} (hc : 0 < mc) (hl : 0 < ml) (hh : 0 < mh)
    (htke : 1 / 2 * (ml + mh) * (lenSq p / mc ^ 2) < tke) (S : Set V3) (hS : MeasurableSet S) :
    probIn (split k mc ml mh tke none p) {x | unitDir (fun i => x.1 i - ml * (p i / mc)) ∈ S} = solid S := by
  rw [← solid_eq hS]
  refine prob_run (local_split k mc ml mh tke p) (n := 2) fun ω hω => ?_
  have h1 := hω 1
  have hcc : (2 * ω 1 - 1) * (2 * ω 1 - 1) ≤ 1 := by nlinarith
  have hr : 0 < 1 / ml + 1 / mh := by positivity
  have hq : nsq p / (mc * mc) = lenSq p / mc ^ 2 := by
    unfold nsq lenSq
    rw [sq, sq, sq, sq]
  have hpf : 0 < 2 * (tke - 1 / 2 * (ml + mh) * (nsq p / (mc * mc))) / (1 / ml + 1 / mh) := by
    rw [hq]
    exact div_pos (by linarith) hr
  have hrun : ∃ x, split k mc ml mh tke none p (pre ω 2) = .ok (x, []) ∧
      x.1 = ![√(2 * (tke - 1 / 2 * (ml + mh) * (nsq p / (mc * mc))) / (1 / ml + 1 / mh)) * cos (k.twopi * ω 0) *
        √(1 - (2 * ω 1 - 1) * (2 * ω 1 - 1)) + ml * p 0 / mc,
        √(2 * (tke - 1 / 2 * (ml + mh) * (nsq p / (mc * mc))) / (1 / ml + 1 / mh)) * sin (k.twopi * ω 0) *
        √(1 - (2 * ω 1 - 1) * (2 * ω 1 - 1)) + ml * p 1 / mc,
        √(2 * (tke - 1 / 2 * (ml + mh) * (nsq p / (mc * mc))) / (1 / ml + 1 / mh)) * (2 * ω 1 - 1) + ml * p 2 / mc] := by
    unfold split
    rw [Rnd.bind_of_ok (needs_run ⟨hc.ne', hl.ne', hh.ne', hr.ne'⟩ _), Rnd.bind_of_ok (sqrtR_run hpf.le _),
      show pre ω 2 = ω 0 :: [ω 1] from rfl, Rnd.bind_of_ok (Rnd.draw_cons _ _),
      Rnd.bind_of_ok (show sampleCos none [ω 1] = .ok (2 * ω 1 - 1, []) from rfl),
      Rnd.bind_of_ok (sqrtR_run (by linarith) _)]
    exact ⟨_, rfl, rfl⟩
  obtain ⟨x, hx, hx1⟩ := hrun
  refine ⟨x, hx, ?_⟩
  · set pf := √(2 * (tke - 1 / 2 * (ml + mh) * (nsq p / (mc * mc))) / (1 / ml + 1 / mh)) with hpfd
    have hpf0 : 0 < pf := sqrt_pos.2 hpf
    have hu := unitDir_scale hpf0 (φ := 2 * π * ω 0) hcc
    show unitDir (fun i => x.1 i - ml * (p i / mc)) ∈ S ↔ dirOf (2 * ω 1 - 1) (2 * π * ω 0) ∈ S
    rw [← hu, hx1, hk]
    refine iff_of_eq (congrArg (· ∈ S) (congrArg unitDir ?_))
    ext i
    fin_cases i
    · show pf * cos (2 * π * ω 0) * √(1 - (2 * ω 1 - 1) * (2 * ω 1 - 1)) + ml * p 0 / mc - ml * (p 0 / mc) = pf * √(1 - (2 * ω 1 - 1) * (2 * ω 1 - 1)) * cos (2 * π * ω 0)
      ring
    · show pf * sin (2 * π * ω 0) * √(1 - (2 * ω 1 - 1) * (2 * ω 1 - 1)) + ml * p 1 / mc - ml * (p 1 / mc) = pf * √(1 - (2 * ω 1 - 1) * (2 * ω 1 - 1)) * sin (2 * π * ω 0)
      ring
    · show pf * (2 * ω 1 - 1) + ml * p 2 / mc - ml * (p 2 / mc) = pf * (2 * ω 1 - 1)
      ring

/-- **C100.**  No direction is preferred: the share of a set of directions does not change when the set is rotated or
reflected, and the shares of all directions add up to one. -/
theorem C100_rotation (R : V3 →ₗ[ℝ] V3) (hR : ∀ x, lenSq (R x) = lenSq x) (S : Set V3) :
    solid (R ⁻¹' S) = solid S ∧ solid Set.univ = 1 := by
  refine ⟨solid_rotate R hR S, ?_⟩
  rw [← solid_eq MeasurableSet.univ]
  simp only [Set.mem_univ]
  exact measure_univ

/-- **C100.**  The share of the directions whose cosine with an axis is at most `c`. -/
theorem C100_cosine (c : ℝ) (h0 : -1 ≤ c) (h1 : c ≤ 1) : solid {v | v 2 ≤ c} = ENNReal.ofReal ((1 + c) / 2) := by
  have hS : MeasurableSet {v : V3 | v 2 ≤ c} := measurable_pi_apply 2 measurableSet_Iic
  rw [← solid_eq hS]
  have e : {ω : ℕ → ℝ | dirOf (2 * ω 1 - 1) (2 * π * ω 0) ∈ {v : V3 | v 2 ≤ c}} = {ω | (ω 0, ω 1) ∈ Set.univ ×ˢ Set.Iic ((1 + c) / 2)} := by
    ext ω
    show 2 * ω 1 - 1 ≤ c ↔ (True ∧ ω 1 ≤ (1 + c) / 2)
    rw [true_and]
    constructor <;> intro h <;> linarith
  rw [e, stream_two (MeasurableSet.univ.prod measurableSet_Iic)]
  have e2 : {x : ℝ × ℝ | (0 ≤ x.1 ∧ x.1 < 1) ∧ (0 ≤ x.2 ∧ x.2 < 1) ∧ x ∈ Set.univ ×ˢ Set.Iic ((1 + c) / 2)} =
      Set.Ico 0 1 ×ˢ (Set.Ico 0 1 ∩ Set.Iic ((1 + c) / 2)) := by
    ext ⟨x, y⟩
    simp only [Set.mem_ofPred_eq, Set.mem_prod, Set.mem_Ico, Set.mem_inter_iff, Set.mem_univ, Set.mem_Iic, true_and]
  rw [e2, Measure.volume_eq_prod, Measure.prod_prod, Real.volume_Ico]
  have e3 : volume (Set.Ico (0 : ℝ) 1 ∩ Set.Iic ((1 + c) / 2)) = ENNReal.ofReal ((1 + c) / 2) := by
    have : (Set.Ico (0 : ℝ) 1 ∩ Set.Iic ((1 + c) / 2) : Set ℝ) =ᵐ[volume] Set.Icc 0 ((1 + c) / 2) := by
      have h2 : (Set.Ico (0 : ℝ) 1 : Set ℝ) =ᵐ[volume] Set.Icc 0 1 := Ico_ae_eq_Icc
      have h3 := h2.inter (Filter.EventuallyEq.refl (ae volume) (Set.Iic ((1 + c) / 2)))
      refine h3.trans ?_
      have : Set.Icc (0 : ℝ) 1 ∩ Set.Iic ((1 + c) / 2) = Set.Icc 0 ((1 + c) / 2) := by
        ext x
        simp only [Set.mem_inter_iff, Set.mem_Icc, Set.mem_Iic]
        constructor
        · rintro ⟨⟨a, -⟩, b⟩; exact ⟨a, b⟩
        · rintro ⟨a, b⟩; exact ⟨⟨a, by linarith⟩, b⟩
      exact Filter.EventuallyEq.of_eq this
    rw [measure_congr this, Real.volume_Icc, sub_zero]
  rw [e3]
  simp

/-- A world with the exact circle. -/
noncomputable def roundWorld : Const := ⟨1, 1, 2 * π, fun _ _ => .ok 0, fun _ _ => .ok 0⟩

/-- Half of the neutrons go forward. -/
example : probIn (neutronBoost roundWorld 30 80 ![1, 2, 3] 2 none) {x | unitDir x.1.vcm ∈ {v : V3 | v 2 ≤ 0}} = 1 / 2 := by
  rw [C100_neutron rfl (by simp [Const.mn, roundWorld]) _ (by norm_num) (m := 80) (by simp [Const.mass, roundWorld]) (by norm_num) {v : V3 | v 2 ≤ 0}
    (measurable_pi_apply 2 measurableSet_Iic), C100_cosine 0 (by norm_num) (by norm_num)]
  rw [add_zero, ENNReal.ofReal_div_of_pos two_pos]
  simp

/-- A neutron and two photons from a fragment at rest. -/
example (S T1 T2 : Set V3) (h1 : MeasurableSet S) (h2 : MeasurableSet T1) (h3 : MeasurableSet T2) :
    probIn (boost roundWorld 30 80 0 [1] [3, 4]) {b | List.Forall₂ (fun e S => unitDir e.vcm ∈ S) b.n [S] ∧
      List.Forall₂ (fun g T => unitDir g.cm ∈ T) b.g [T1, T2]} = solid S * (solid T1 * solid T2) := by
  have hmn : roundWorld.mn = 1 := by simp [Const.mn, roundWorld]
  have hmass : ∀ a : Int, roundWorld.mass 30 a = .ok (a : ℝ) := by
    intro a
    simp [Const.mass, roundWorld]
  have := C100_particles (k := roundWorld) (z := 30) (a := 80) (p := 0) (ns := [1]) (gs := [3, 4]) (mf := 79) rfl
    (by rw [hmn]; exact one_pos) (by simp) (by simp) (by
      intro i hi
      have hi : i < 1 := hi
      obtain rfl : i = 0 := by omega
      exact ⟨_, hmass _, by norm_num⟩) ⟨_, hmass _⟩ (by
      rw [show ∀ a : Int, roundWorld.massT 30 a = .ok (a : ℝ) by intro a; simp [Const.massT, roundWorld]]
      norm_num) (by norm_num)
    (by
      intro s x s' h
      obtain ⟨y, s1, hy, h⟩ := Rnd.bind_ok.mp (show (neutronBoost roundWorld 30 80 0 1 none >>= _) s = _ from h)
      obtain ⟨m, -, -, -, hk, -, hp⟩ := C35_momentum hy
      obtain ⟨w, s2, hw, h⟩ := Rnd.bind_ok.mp h
      obtain ⟨rfl, rfl⟩ := Rnd.pure_ok.mp (show (pure ([], y.2) : Rnd ℝ (List Emit × V3)) s1 = .ok (w, s2) from hw)
      obtain ⟨rfl, rfl⟩ := Rnd.pure_ok.mp h
      have hp : ∀ i, y.2 i = -y.1.vcm i := by
        intro i
        have := hp i
        rw [hmn] at this
        simpa using this
      have hk : y.1.vcm 0 ^ 2 + y.1.vcm 1 ^ 2 + y.1.vcm 2 ^ 2 = 2 := by
        unfold CGMF.Spec.kinetic CGMF.Spec.dot at hk
        rw [hmn, Fin.sum_univ_three] at hk
        linarith
      show y.2 0 ^ 2 + y.2 1 ^ 2 + y.2 2 ^ 2 < _
      rw [hp, hp, hp, neg_sq, neg_sq, neg_sq, hk]
      norm_num) [S] [T1, T2] (by simp [h1]) (by simp [h2, h3]) rfl rfl
  rw [this]
  simp

/-- Fragments of masses 100 and 136. -/
example (S : Set V3) (hS : MeasurableSet S) :
    probIn (split roundWorld 236 100 136 170 none ![0, 0, 2]) {x | unitDir (fun i => x.1 i - 100 * (![0, 0, 2] i / 236)) ∈ S} = solid S :=
  C100_fragments rfl (by norm_num) (by norm_num) (by norm_num) (by
    show _ * ((0 ^ 2 + 0 ^ 2 + 2 ^ 2) / _) < _
    norm_num) S hS

end CGMF.Props

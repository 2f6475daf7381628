import Verif.Proofs.Isotropy
import Verif.Proofs.Kinematics
import Verif.Props.LawStep

/-! # Directions made of consecutive pairs of uniform numbers -/

namespace CGMF.Isotropy

open MeasureTheory Real CGMF.Law CGMF.Kin CGMF.Props

theorem local_draw : Local (Rnd.draw : Rnd ℝ ℝ) := by
  intro s a s' h
  have := Rnd.draw_ok.mp h
  exact ⟨[a], this, fun t => rfl⟩

theorem local_lift {α : Type} (x : Res α) : Local (Rnd.lift x : Rnd ℝ α) := by
  intro s a s' h
  obtain ⟨h1, rfl⟩ := Rnd.lift_ok.mp h
  exact ⟨[], rfl, fun t => Rnd.lift_ok.mpr ⟨h1, rfl⟩⟩

theorem local_needs (p : Prop) : Local (needs p) := by
  intro s a s' h
  obtain ⟨h1, rfl⟩ := needs_ok.mp h
  exact ⟨[], rfl, fun t => needs_run h1 t⟩

theorem local_sqrtR (x : ℝ) : Local (sqrtR x) := local_bind (local_needs _) fun _ => local_pure _

theorem local_iso : Local (sampleCos none) := local_bind local_draw fun _ => local_pure _

theorem local_neutron (k : Const) (z a : Int) (p : V3) (ecm : ℝ) : Local (neutronBoost k z a p ecm none) :=
  local_bind (local_lift _) fun _ => local_bind local_draw fun _ => local_bind local_iso fun _ =>
    local_bind (local_sqrtR _) fun _ => local_bind (local_needs _) fun _ => local_bind (local_sqrtR _) fun _ =>
      local_bind (local_needs _) fun _ => local_pure _

theorem local_neutrons (k : Const) (z : Int) : ∀ (ns : List ℝ) (a : Int) (p : V3), Local (boostNeutrons k z a p ns)
  | [], _, _ => local_pure _
  | _ :: ns, a, _ => local_bind (local_neutron _ _ _ _ _) fun _ => local_bind (local_neutrons k z ns (a - 1) _) fun _ => local_pure _

theorem local_photon (k : Const) (pf mf eg : ℝ) : Local (photonBoost k pf mf eg) :=
  local_bind local_draw fun _ => local_bind local_draw fun _ => local_bind (local_needs _) fun _ =>
    local_bind (local_needs _) fun _ => local_bind (local_sqrtR _) fun _ => local_bind (local_needs _) fun _ => local_pure _

theorem local_photons (k : Const) (pf mf : ℝ) : ∀ (gs : List ℝ), Local (photons k pf mf gs)
  | [] => local_pure _
  | _ :: gs => local_bind (local_photon _ _ _ _) fun _ => local_bind (local_photons k pf mf gs) fun _ => local_pure _

theorem local_boost (k : Const) (z a : Int) (p : V3) (ns gs : List ℝ) : Local (boost k z a p ns gs) :=
  local_bind (local_lift _) fun _ => local_bind (local_neutrons _ _ _ _ _) fun _ => local_bind (local_lift _) fun _ =>
    local_bind (local_photons _ _ _ _) fun _ => local_pure _

theorem local_split (k : Const) (mc ml mh tke : ℝ) (p : V3) : Local (split k mc ml mh tke none p) :=
  local_bind (local_needs _) fun _ => local_bind (local_sqrtR _) fun _ => local_bind local_draw fun _ =>
    local_bind local_iso fun _ => local_bind (local_sqrtR _) fun _ => local_pure _

/-- A computation that always uses `n` numbers. -/
theorem prob_run {α : Type} {f : Rnd ℝ α} (hf : Local f) {n : Nat} {S : Set α} {E : Set (ℕ → ℝ)}
    (h : ∀ ω, Inside ω → ∃ x, f (pre ω n) = .ok (x, []) ∧ (x ∈ S ↔ ω ∈ E)) : probIn f S = stream E := by
  apply stream_congr
  intro ω hω
  obtain ⟨x, h1, h2⟩ := h ω hω
  rw [← h2]
  constructor
  · rintro ⟨m, a, h3, h4⟩
    have := at_unique hf (show ω ∈ At f a m from h3) (show ω ∈ At f x n from h1)
    rw [← this.1]
    exact h4
  · intro h4
    exact ⟨n, x, h1, h4⟩

/-- Sequences whose consecutive pairs give directions in the given sets. -/
def Dirs : List (Set V3) → Set (ℕ → ℝ)
  | [] => Set.univ
  | S :: Ss => {ω | dirOf (2 * ω 1 - 1) (2 * π * ω 0) ∈ S} ∩ shift 2 ⁻¹' Dirs Ss

theorem measurable_pairDir {S : Set V3} (hS : MeasurableSet S) : MeasurableSet {ω : ℕ → ℝ | dirOf (2 * ω 1 - 1) (2 * π * ω 0) ∈ S} := by
  have h1 : Measurable fun x : ℝ × ℝ => 2 * x.2 - 1 := (measurable_snd.const_mul 2).sub_const 1
  have h2 : Measurable fun x : ℝ × ℝ => 2 * π * x.1 := measurable_fst.const_mul (2 * π)
  have hm : Measurable fun x : ℝ × ℝ => dirOf (2 * x.2 - 1) (2 * π * x.1) := measurable_dirOf' h1 h2
  exact measurable_pair (hm hS)

theorem measurable_dirs : ∀ {Ss : List (Set V3)}, (∀ S ∈ Ss, MeasurableSet S) → MeasurableSet (Dirs Ss)
  | [], _ => MeasurableSet.univ
  | _ :: _, h => (measurable_pairDir (h _ (.head _))).inter
      (measurable_shift 2 (measurable_dirs fun T hT => h T (.tail _ hT)))

/-- Directions are independent. -/
theorem stream_dirs : ∀ {Ss : List (Set V3)}, (∀ S ∈ Ss, MeasurableSet S) → stream (Dirs Ss) = (Ss.map solid).prod
  | [], _ => by rw [Dirs, measure_univ]; rfl
  | S :: Ss, h => by
    rw [Dirs, indep _ (measurable_dirs fun T hT => h T (.tail _ hT)) 2 _ (measurable_pairDir (h S (.head _))),
      stream_dirs fun T hT => h T (.tail _ hT), solid_eq (h S (.head _))]
    · rfl
    · intro ω ω' hω
      show _ ∈ S ↔ _ ∈ S
      rw [hω 0 (by omega), hω 1 (by omega)]

theorem dirs_append : ∀ (Ss Ts : List (Set V3)), Dirs (Ss ++ Ts) = Dirs Ss ∩ shift (2 * Ss.length) ⁻¹' Dirs Ts
  | [], Ts => by
    rw [List.nil_append, Dirs, Set.univ_inter]
    ext ω
    rw [Set.mem_preimage]
    have : Law.shift (2 * ([] : List (Set V3)).length) ω = ω := by funext k; simp [Law.shift]
    rw [this]
  | S :: Ss, Ts => by
    rw [List.cons_append, Dirs, Dirs, dirs_append Ss Ts, Set.preimage_inter, Set.inter_assoc]
    congr 2
    ext ω
    simp only [Set.mem_preimage]
    have : Law.shift (2 * Ss.length) (Law.shift 2 ω) = Law.shift (2 * (S :: Ss).length) ω := by
      funext k
      simp only [Law.shift, List.length_cons]
      congr 1
      ring
    rw [this]

/-- Direction of a stretched direction. -/
theorem unitDir_scale {v : ℝ} (hv : 0 < v) {c φ : ℝ} (hc : c * c ≤ 1) :
    unitDir ![v * √(1 - c * c) * cos φ, v * √(1 - c * c) * sin φ, v * c] = dirOf c φ := by
  have hl : lenSq ![v * √(1 - c * c) * cos φ, v * √(1 - c * c) * sin φ, v * c] = v ^ 2 := by
    have := direction_sq v c φ hc
    unfold nsq at this
    unfold lenSq
    rw [sq, sq, sq, this, sq]
  ext i
  unfold unitDir
  rw [hl, sqrt_sq hv.le]
  unfold dirOf
  rw [sq c]
  fin_cases i
  · show v * √(1 - c * c) * cos φ / v = √(1 - c * c) * cos φ
    field_simp
  · show v * √(1 - c * c) * sin φ / v = √(1 - c * c) * sin φ
    field_simp
  · show v * c / v = c
    field_simp

/-- The neutrons of a fragment. -/
theorem neutrons_run {k : Const} (hk : k.twopi = 2 * π) (hmn : 0 < k.mn) {z : Int} : ∀ (ns : List ℝ) (Ss : List (Set V3))
    (a : Int) (p : V3), Ss.length = ns.length → (∀ e ∈ ns, 0 < e) →
    (∀ i : Nat, i < ns.length → ∃ m, k.mass z (a - i) = .ok m ∧ m ≠ 0) → ∀ (ω : ℕ → ℝ) (t : List ℝ), Inside ω →
    ∃ x, boostNeutrons k z a p ns (pre ω (2 * ns.length) ++ t) = .ok (x, t) ∧
      (List.Forall₂ (fun e S => unitDir e.vcm ∈ S) x.1 Ss ↔ ω ∈ Dirs Ss)
  | [], [], a, p, _, _, _, ω, t, _ => ⟨([], p), rfl, by simp [Dirs]⟩
  | [], _ :: _, _, _, h, _, _, _, _, _ => by simp at h
  | _ :: _, [], _, _, h, _, _, _, _, _ => by simp at h
  | e :: ns, S :: Ss, a, p, hlen, he, hm, ω, t, hω => by
    obtain ⟨m, hm1, hm0⟩ := hm 0 (by simp)
    rw [Nat.cast_zero, sub_zero] at hm1
    have h1 := hω 1
    have hc : (2 * ω 1 - 1) * (2 * ω 1 - 1) ≤ 1 := by nlinarith
    have hv : 0 < 2 * e / k.mn := div_pos (by linarith [he e (.head _)]) hmn
    obtain ⟨x, p', hx, hd, -, -⟩ := neutronBoost_run (k := k) (z := z) (a := a) (p := p) (ecm := e) (tab := none)
      (s := ω 1 :: (pre (Law.shift 2 ω) (2 * ns.length) ++ t)) (s1 := pre (Law.shift 2 ω) (2 * ns.length) ++ t) (r := ω 0)
      (c := 2 * ω 1 - 1) hm1 rfl hc hm0 hmn.ne' hv.le
    obtain ⟨y, hy, hyS⟩ := neutrons_run hk hmn ns Ss (a - 1) p' (by simpa using hlen) (fun e h => he e (.tail _ h)) (by
      intro i hi
      obtain ⟨m, h1, h2⟩ := hm (i + 1) (by simpa using hi)
      refine ⟨m, ?_, h2⟩
      rw [← h1]
      congr 1
      push_cast
      ring) (Law.shift 2 ω) t (inside_shift hω 2)
    refine ⟨(x :: y.1, y.2), ?_, ?_⟩
    · have hp : pre ω (2 * (e :: ns).length) ++ t = ω 0 :: ω 1 :: (pre (Law.shift 2 ω) (2 * ns.length) ++ t) := by
        rw [List.length_cons, show 2 * (ns.length + 1) = 2 * ns.length + 2 by ring, pre_two_more]
        rfl
      rw [hp]
      show (neutronBoost k z a p e none >>= _) _ = _
      rw [Rnd.bind_of_ok hx, Rnd.bind_of_ok hy]
      rfl
    · rw [List.forall₂_cons, hyS, hd, unitDir_scale (sqrt_pos.2 hv) hc, hk]
      rfl

/-- The axes of a photon in the order of a neutron's. -/
noncomputable def turn : V3 →ₗ[ℝ] V3 := LinearMap.funLeft ℝ ℝ ![2, 0, 1]

theorem turn_apply (x : V3) : turn x = ![x 2, x 0, x 1] := by
  ext i
  fin_cases i <;> rfl

theorem turn_len (x : V3) : lenSq (turn x) = lenSq x := by
  rw [turn_apply]
  show x 2 ^ 2 + x 0 ^ 2 + x 1 ^ 2 = x 0 ^ 2 + x 1 ^ 2 + x 2 ^ 2
  ring

theorem measurable_turn : Measurable turn := by
  refine measurable_pi_lambda _ fun i => ?_
  exact measurable_pi_apply _

/-- One photon. -/
theorem photon_dir {k : Const} (hk : k.twopi = 2 * π) {pf mf eg : ℝ} (hmf : 0 < mf) (h0 : 0 ≤ pf) (h1 : pf < mf) (he : 0 < eg)
    {r1 r2 : ℝ} (hr0 : 0 < r2) (hr1 : r2 < 1) (t : List ℝ) :
    ∃ g, photonBoost k pf mf eg (r1 :: r2 :: t) = .ok (g, t) ∧ unitDir g.cm = turn (dirOf (2 * r2 - 1) (2 * π * r1)) := by
  have hb : pf / mf < 1 := (div_lt_one hmf).2 h1
  have hb0 : 0 ≤ pf / mf := div_nonneg h0 hmf.le
  have c0 : -1 ≤ 2 * r2 - 1 := by linarith
  have c1 : 2 * r2 - 1 ≤ 1 := by linarith
  have hcos := cos_arccos c0 c1
  have hden : 1 - pf / mf * cos (arccos (2 * r2 - 1)) ≠ 0 := by
    rw [hcos]
    have : pf / mf * (2 * r2 - 1) < 1 := by nlinarith
    linarith
  unfold photonBoost
  rw [Rnd.bind_of_ok (Rnd.draw_cons _ _), Rnd.bind_of_ok (Rnd.draw_cons _ _), Rnd.bind_of_ok (needs_run ⟨c0, c1⟩ _),
    Rnd.bind_of_ok (needs_run hmf.ne' _), Rnd.bind_of_ok (sqrtR_run (by nlinarith) _), Rnd.bind_of_ok (needs_run hden _)]
  refine ⟨_, rfl, ?_⟩
  simp only
  have hc : (2 * r2 - 1) * (2 * r2 - 1) ≤ 1 := by nlinarith
  have hu := unitDir_scale he (φ := 2 * π * r1) hc
  rw [← hu, hk, sin_arccos, sq]
  set x : V3 := ![eg * √(1 - (2 * r2 - 1) * (2 * r2 - 1)) * cos (2 * π * r1),
    eg * √(1 - (2 * r2 - 1) * (2 * r2 - 1)) * sin (2 * π * r1), eg * (2 * r2 - 1)] with hx
  have e : ![eg * (2 * r2 - 1), eg * √(1 - (2 * r2 - 1) * (2 * r2 - 1)) * cos (2 * π * r1),
      eg * √(1 - (2 * r2 - 1) * (2 * r2 - 1)) * sin (2 * π * r1)] = turn x := by
    rw [turn_apply]
    rfl
  rw [e]
  ext i
  unfold unitDir
  rw [turn_len, turn_apply, turn_apply]
  fin_cases i <;> rfl

/-- The photons of a fragment. -/
theorem photons_run {k : Const} (hk : k.twopi = 2 * π) {pf mf : ℝ} (hmf : 0 < mf) (h0 : 0 ≤ pf) (h1 : pf < mf) :
    ∀ (gs : List ℝ) (Ts : List (Set V3)), Ts.length = gs.length → (∀ e ∈ gs, 0 < e) → ∀ (ω : ℕ → ℝ) (t : List ℝ), Inside ω →
    ∃ x, photons k pf mf gs (pre ω (2 * gs.length) ++ t) = .ok (x, t) ∧
      (List.Forall₂ (fun g T => unitDir g.cm ∈ T) x Ts ↔ ω ∈ Dirs (Ts.map fun T => turn ⁻¹' T))
  | [], [], _, _, ω, t, _ => ⟨[], rfl, by simp [Dirs]⟩
  | [], _ :: _, h, _, _, _, _ => by simp at h
  | _ :: _, [], h, _, _, _, _ => by simp at h
  | e :: gs, T :: Ts, hlen, he, ω, t, hω => by
    obtain ⟨g, hg, hd⟩ := photon_dir hk hmf h0 h1 (he e (.head _)) (r1 := ω 0) (hω 1).1 (hω 1).2
      (pre (Law.shift 2 ω) (2 * gs.length) ++ t)
    obtain ⟨y, hy, hyS⟩ := photons_run hk hmf h0 h1 gs Ts (by simpa using hlen) (fun e h => he e (.tail _ h)) (Law.shift 2 ω) t
      (inside_shift hω 2)
    refine ⟨g :: y, ?_, ?_⟩
    · have hp : pre ω (2 * (e :: gs).length) ++ t = ω 0 :: ω 1 :: (pre (Law.shift 2 ω) (2 * gs.length) ++ t) := by
        rw [List.length_cons, show 2 * (gs.length + 1) = 2 * gs.length + 2 by ring, pre_two_more]
        rfl
      rw [hp]
      show (photonBoost k pf mf e >>= _) _ = _
      rw [Rnd.bind_of_ok hg, Rnd.bind_of_ok hy]
      rfl
    · rw [List.forall₂_cons, hyS, hd]
      rfl

theorem solid_turned (Ts : List (Set V3)) : ((Ts.map fun T => turn ⁻¹' T).map solid).prod = (Ts.map solid).prod := by
  rw [List.map_map]
  congr 1
  apply List.map_congr_left
  intro T _
  exact solid_rotate turn turn_len T

end CGMF.Isotropy

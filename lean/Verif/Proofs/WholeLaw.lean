import Verif.Proofs.EmitLaw
import Verif.Props.Initial
import Mathlib.Probability.Kernel.Composition.MeasureCompProd

/-! # Integrals over the law of the initial conditions -/

namespace CGMF.Law

open MeasureTheory ProbabilityTheory CGMF.Frag CGMF.Pre CGMF.Props

instance : Nonempty (Exc ℝ) := ⟨⟨0, 0, none, 0⟩⟩

theorem measurable_ul : Measurable fun x : Exc ℝ => x.ul := measurable_fst.comp measurable_enc

theorem measurable_uh : Measurable fun x : Exc ℝ => x.uh := (measurable_fst.comp measurable_snd).comp measurable_enc

section

variable {M : Type} {v : Env ℝ M} {a0 : Int} {c : Comp ℝ} {p : Pair} {E q m s e0 : ℝ}

theorem sm_excite (hv : Regular v) (fuel : Nat) (p : Pair) (E q t : ℝ) : SM (excite v fuel p (E - t) q) :=
  fun n => (jm_excite hv fuel p E q).fix t n

/-- The law of energies, spins and parities as a function of the kinetic energy. -/
noncomputable def exciteKernel (hv : Regular v) (fuel : Nat) (p : Pair) (E q : ℝ) : Kernel ℝ (Exc ℝ) where
  toFun t := law (excite v fuel p (E - t) q)
  measurable' := by
    refine Measure.measurable_of_measurable_coe _ fun A hA => ?_
    simp only [law_apply (local_excite hv fuel p _ q) (sm_excite hv fuel p E q _) hA]
    exact measurable_probIn (fun t => local_excite hv fuel p _ q) (jm_excite hv fuel p E q) hA

instance (hv : Regular v) (fuel : Nat) (p : Pair) (E q : ℝ) : IsFiniteKernel (exciteKernel hv fuel p E q) := by
  refine ⟨1, ENNReal.one_lt_top, fun t => ?_⟩
  show law (excite v fuel p (E - t) q) Set.univ ≤ 1
  rw [law_apply (local_excite hv fuel p _ q) (sm_excite hv fuel p E q _) MeasurableSet.univ]
  exact MeasureTheory.prob_le_one

/-- Integral over what the loop returns. -/
theorem loop_integral [Nonempty M] (h : Setting v a0 c p E q m s e0) (fuel n : Nat) {F : ℝ × Exc ℝ → ENNReal} (hF : Measurable F) :
    letI : MeasurableSpace M := ⊥
    ∫⁻ y, F (y.1, y.2.1) ∂law (tkeLoop v fuel a0 c p n) =
      (∑ i ∈ Finset.range n, gaussianReal m (s ^ 2).toNNReal (Set.Ioi E) ^ i) *
        ∫⁻ t in Set.Ico e0 E, ∫⁻ x, F (t, x) ∂law (excite v fuel p (E - t) q) ∂gaussianReal m (s ^ 2).toNNReal := by
  letI : MeasurableSpace M := ⊥
  have hv := setting_regular h
  obtain ⟨h1, h2, _⟩ := setting_tke h
  obtain ⟨ml, mh, e1, e2, hq⟩ := h.masses
  obtain ⟨r1, r2⟩ := loop_reg hv h.boost fuel h1 h2 e1 e2 n
  have hm : Measurable fun y : ℝ × Exc ℝ × M => (y.1, y.2.1) := measurable_fst.prodMk (measurable_fst.comp measurable_snd)
  have key : (law (tkeLoop v fuel a0 c p n)).map (fun y : ℝ × Exc ℝ × M => (y.1, y.2.1)) =
      (∑ i ∈ Finset.range n, gaussianReal m (s ^ 2).toNNReal (Set.Ioi E) ^ i) •
        (((gaussianReal m (s ^ 2).toNNReal).restrict (Set.Ico e0 E)) ⊗ₘ exciteKernel hv fuel p E q) := by
    ext A hA
    rw [Measure.map_apply hm hA, law_apply r1 r2 (hm hA), Measure.smul_apply, Measure.compProd_apply hA, smul_eq_mul]
    refine (setting_law h fuel n hA).trans ?_
    congr 1
    apply lintegral_congr
    intro t
    exact (law_apply (local_excite hv fuel p _ q) (sm_excite hv fuel p E q t) (measurable_prodMk_left hA)).symm
  rw [← lintegral_map hF hm, key, lintegral_smul_measure, Measure.lintegral_compProd hF, smul_eq_mul]
  rfl

/-- What the last pass of the loop did. -/
theorem loop_run {ml mh : ℝ} (hml : v.mass (1000 * p.zl + p.al) = .ok ml) (hmh : v.mass (1000 * p.zh + p.ah) = .ok mh)
    (hq : q = c.mx - ml - mh) (hE : E = q + (c.einc + c.sn)) (fuel : Nat) : ∀ (n : Nat) {l l' : List ℝ} {y : ℝ × Exc ℝ × M},
    tkeLoop v fuel a0 c p n l = .ok (y, l') → ∃ l1 l2 l3, excite v fuel p (E - y.1) q l1 = .ok (y.2.1, l2) ∧
      v.boost y.1 p (a0 - c.ac) l2 = .ok (y.2.2, l3) ∧ ¬ (y.2.1.ul = 0 ∧ y.2.1.uh = 0)
  | 0, _, _, _, h => by cases h
  | n + 1, l, l', y, h => by
    rw [tkeLoop_succ hml hmh, ← hq, ← hE] at h
    obtain ⟨t, s1, -, h⟩ := Rnd.bind_ok.mp h
    unfold after at h
    obtain ⟨x, s2, g1, h⟩ := Rnd.bind_ok.mp h
    obtain ⟨b, s3, g2, h⟩ := Rnd.bind_ok.mp h
    split at h
    · exact loop_run hml hmh hq hE fuel n h
    · next hz =>
      obtain ⟨rfl, -⟩ := Rnd.pure_ok.mp h
      exact ⟨s1, s2, s3, g1, g2, hz⟩

/-- The kinetic energy and the energies the loop returns. -/
theorem loop_facts (h : Setting v a0 c p E q m s e0) (fuel n : Nat) {l l' : List ℝ} {y : ℝ × Exc ℝ × M}
    (hy : tkeLoop v fuel a0 c p n l = .ok (y, l')) : e0 ≤ y.1 ∧ y.1 ≤ E ∧ (∃ u bl bh w, Shared v fuel p (E - y.1) u bl bh ∧
      y.2.1 = ⟨u.1, u.2, some w, q⟩) ∧ ∃ l1 l2, v.boost y.1 p (a0 - c.ac) l1 = .ok (y.2.2, l2) := by
  obtain ⟨ml, mh, e1, e2, hq⟩ := h.masses
  obtain ⟨l1, l2, l3, g1, g2, g3⟩ := loop_run e1 e2 hq h.energy fuel n hy
  have he : e0 ≤ y.1 := by
    by_contra hc
    exact h.boost.no y.1 hc _ _ g2
  have hE : y.1 ≤ E := by
    by_contra hc
    unfold excite at g1
    rw [if_pos (by linarith)] at g1
    have := (Rnd.pure_ok.mp g1).1
    exact g3 (by rw [← this]; exact ⟨rfl, rfl⟩)
  exact ⟨he, hE, excite_run h.exp (by linarith) g1, l2, l3, g2⟩

end

end CGMF.Law

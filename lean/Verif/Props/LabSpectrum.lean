import Verif.Props.Isotropy

/-!
# C158: laboratory energies and directions of neutrons

Probabilities refer to independent uniform random numbers, as for C100.
-/

namespace CGMF.Props

open MeasureTheory Real CGMF.Law CGMF.Kin CGMF.Isotropy CGMF.Spec

/-- The reflection that takes the axis to the unit vector `u`. -/
theorem reflection_exists {u : V3} (hu : lenSq u = 1) : ∃ R : V3 →ₗ[ℝ] V3, (∀ x, lenSq (R x) = lenSq x) ∧ ∀ x, R x 2 = dot x u := by
  by_cases h1 : u 2 = 1
  · refine ⟨LinearMap.id, fun x => rfl, fun x => ?_⟩
    unfold lenSq at hu
    rw [h1] at hu
    have a : u 0 = 0 := by nlinarith [sq_nonneg (u 0), sq_nonneg (u 1)]
    have b : u 1 = 0 := by nlinarith [sq_nonneg (u 0), sq_nonneg (u 1)]
    simp [dot, Fin.sum_univ_three, a, b, h1]
  · have d : 1 - u 2 ≠ 0 := fun h => h1 (by linarith)
    let g : V3 → ℝ := fun x => (u 0 * x 0 + u 1 * x 1 + (u 2 - 1) * x 2) / (1 - u 2)
    let w : V3 := ![u 0, u 1, u 2 - 1]
    refine ⟨{ toFun := fun x i => x i - g x * w i, map_add' := fun x y => ?_, map_smul' := fun c x => ?_ }, fun x => ?_, fun x => ?_⟩
    · funext i
      simp only [g, Pi.add_apply]
      ring
    · funext i
      simp only [g, Pi.smul_apply, smul_eq_mul, RingHom.id_apply]
      ring
    · show (x 0 - g x * u 0) ^ 2 + (x 1 - g x * u 1) ^ 2 + (x 2 - g x * (u 2 - 1)) ^ 2 = x 0 ^ 2 + x 1 ^ 2 + x 2 ^ 2
      have hg : g x * (1 - u 2) = u 0 * x 0 + u 1 * x 1 + (u 2 - 1) * x 2 := div_mul_cancel₀ _ d
      unfold lenSq at hu
      generalize g x = t at *
      have hw : u 0 ^ 2 + u 1 ^ 2 + (u 2 - 1) ^ 2 = 2 * (1 - u 2) := by linarith
      have e : (x 0 - t * u 0) ^ 2 + (x 1 - t * u 1) ^ 2 + (x 2 - t * (u 2 - 1)) ^ 2 =
          x 0 ^ 2 + x 1 ^ 2 + x 2 ^ 2 - 2 * t * (u 0 * x 0 + u 1 * x 1 + (u 2 - 1) * x 2) + t ^ 2 * (u 0 ^ 2 + u 1 ^ 2 + (u 2 - 1) ^ 2) := by ring
      rw [e, hw, ← hg]
      ring
    · show x 2 - g x * (u 2 - 1) = dot x u
      have hg : g x * (1 - u 2) = u 0 * x 0 + u 1 * x 1 + (u 2 - 1) * x 2 := div_mul_cancel₀ _ d
      rw [dot, Fin.sum_univ_three]
      linarith

/-- The share of the directions whose cosine with any direction `u` is at most `c`. -/
theorem solid_cap {u : V3} (hu : lenSq u = 1) {c : ℝ} (h0 : -1 ≤ c) (h1 : c ≤ 1) : solid {v | dot v u ≤ c} = ENNReal.ofReal ((1 + c) / 2) := by
  obtain ⟨R, hR, h2⟩ := reflection_exists hu
  rw [← C100_cosine c h0 h1, ← solid_rotate R hR {v | v 2 ≤ c}]
  congr 1
  ext v
  show dot v u ≤ c ↔ R v 2 ≤ c
  rw [h2]

theorem probIn_congr {α : Type} {f : Rnd ℝ α} {S T : Set α} (h : ∀ s a s', f s = .ok (a, s') → (a ∈ S ↔ a ∈ T)) : probIn f S = probIn f T := by
  unfold probIn
  congr 1
  ext ω
  constructor <;> rintro ⟨n, a, h1, h2⟩
  · exact ⟨n, a, h1, (h _ _ _ h1).1 h2⟩
  · exact ⟨n, a, h1, (h _ _ _ h1).2 h2⟩

theorem dot_unit {v b : V3} (hv : 0 < lenSq v) (hb : 0 < lenSq b) : dot v b = √(lenSq v) * √(lenSq b) * dot (unitDir v) (unitDir b) := by
  have a := (sqrt_pos.2 hv).ne'
  have c := (sqrt_pos.2 hb).ne'
  simp only [dot, unitDir, Fin.sum_univ_three]
  field_simp

theorem lenSq_unit {v : V3} (hv : 0 < lenSq v) : lenSq (unitDir v) = 1 := by
  have a := (sqrt_pos.2 hv).ne'
  have e := sq_sqrt hv.le
  have : lenSq (unitDir v) = lenSq v / √(lenSq v) ^ 2 := by
    unfold unitDir lenSq
    ring
  rw [this, e, div_self hv.ne']

theorem dot_self (v : V3) : dot v v = lenSq v := by
  rw [dot, Fin.sum_univ_three, lenSq]
  ring

theorem dot_le_one {v b : V3} (hv : lenSq v = 1) (hb : lenSq b = 1) : dot v b ≤ 1 := by
  rw [dot, Fin.sum_univ_three]
  unfold lenSq at hv hb
  nlinarith [sq_nonneg (v 0 - b 0), sq_nonneg (v 1 - b 1), sq_nonneg (v 2 - b 2)]

variable {k : Const} {z a : Int} {p : V3} {ecm m : ℝ}

/-- What a completed emission gives, in terms of the angle with the fragment. -/
theorem emitted_angle (hmn : 0 < k.mn) (he : 0 < ecm) (hm : k.mass z a = .ok m) (hb : 0 < lenSq fun i => p i / m) {s s' : List ℝ} {x : Emit × V3}
    (h : neutronBoost k z a p ecm none s = .ok (x, s')) :
    lenSq (unitDir x.1.vcm) = 1 ∧ x.1.energy = ecm + kinetic k.mn (fun i => p i / m) +
      2 * (√ecm * √(kinetic k.mn fun i => p i / m)) * dot (unitDir x.1.vcm) (unitDir fun i => p i / m) ∧
      dot x.1.v (fun i => p i / m) = 2 / k.mn * √(kinetic k.mn fun i => p i / m) *
        (√ecm * dot (unitDir x.1.vcm) (unitDir fun i => p i / m) + √(kinetic k.mn fun i => p i / m)) := by
  obtain ⟨m', hm', -, h2, h3, h4, -⟩ := C35_momentum (e := x.1) (p' := x.2) h
  rw [hm] at hm'
  cases hm'
  set b : V3 := fun i => p i / m with hbd
  have hcm : lenSq x.1.vcm = 2 * ecm / k.mn := by
    rw [kinetic, dot_self] at h3
    rw [eq_div_iff hmn.ne', ← h3]
    ring
  have hv : 0 < lenSq x.1.vcm := by rw [hcm]; positivity
  have f0 : kinetic k.mn b = k.mn / 2 * lenSq b := by
    rw [kinetic, dot_self]
    ring
  have w : √(lenSq x.1.vcm) = √(2 / k.mn) * √ecm := by
    rw [hcm, ← sqrt_mul (by positivity)]
    congr 1
    ring
  have u : √(lenSq b) = √(2 / k.mn) * √(kinetic k.mn b) := by
    rw [f0, ← sqrt_mul (by positivity)]
    congr 1
    field_simp
  have r := mul_self_sqrt (show 0 ≤ 2 / k.mn by positivity)
  have d := dot_unit hv hb
  rw [w, u] at d
  have ev : x.1.v = fun i => x.1.vcm i + b i := funext h4
  have d' : dot x.1.vcm b = 2 / k.mn * (√ecm * √(kinetic k.mn b)) * dot (unitDir x.1.vcm) (unitDir b) := by
    rw [d]
    linear_combination (√ecm * √(kinetic k.mn b) * dot (unitDir x.1.vcm) (unitDir b)) * r
  refine ⟨lenSq_unit hv, ?_, ?_⟩
  · have e1 : kinetic k.mn x.1.v = kinetic k.mn x.1.vcm + kinetic k.mn b + k.mn * dot x.1.vcm b := by
      rw [ev]
      simp only [kinetic, dot, Fin.sum_univ_three]
      ring
    rw [h2, e1, h3, d']
    field_simp
  · have e1 : dot x.1.v b = dot x.1.vcm b + lenSq b := by
      rw [ev, ← dot_self]
      simp only [dot, Fin.sum_univ_three]
      ring
    have e2 : lenSq b = 2 / k.mn * (√(kinetic k.mn b) * √(kinetic k.mn b)) := by
      rw [mul_self_sqrt (by rw [f0]; positivity), f0]
      field_simp
    rw [e1, d', e2]
    ring

/-- **C158**, limits: the laboratory energy of a neutron lies between the squares of the difference and of the sum of the roots of its energy in
the frame of the fragment and of the energy `f` it has from the motion of the fragment. -/
theorem C158_limits (hmn : 0 < k.mn) (he : 0 < ecm) (hm : k.mass z a = .ok m) (hb : 0 < lenSq fun i => p i / m) {f : ℝ}
    (hf : f = kinetic k.mn fun i => p i / m) {s s' : List ℝ} {x : Emit × V3} (h : neutronBoost k z a p ecm none s = .ok (x, s')) :
    (√ecm - √f) ^ 2 ≤ x.1.energy ∧ x.1.energy ≤ (√ecm + √f) ^ 2 := by
  obtain ⟨h1, h2, -⟩ := emitted_angle hmn he hm hb h
  rw [← hf] at h2
  have f0 : 0 ≤ f := by
    rw [hf, kinetic, dot_self]
    positivity
  have e1 := sq_sqrt he.le
  have e2 := sq_sqrt f0
  have n1 := dot_le_one h1 (lenSq_unit hb)
  have n2 : -1 ≤ dot (unitDir x.1.vcm) (unitDir fun i => p i / m) := by
    have := dot_le_one (v := fun i => -unitDir x.1.vcm i) (b := unitDir fun i => p i / m) (by rw [← h1]; simp [lenSq]) (lenSq_unit hb)
    have e : dot (fun i => -unitDir x.1.vcm i) (unitDir fun i => p i / m) = -dot (unitDir x.1.vcm) (unitDir fun i => p i / m) := by
      simp only [dot, Fin.sum_univ_three]
      ring
    rw [e] at this
    linarith
  have q : 0 ≤ √ecm * √f := by positivity
  rw [h2]
  constructor <;> nlinarith

/-- **C158**, spectrum: between the limits the laboratory energy is uniform. -/
theorem C158_energy (hk : k.twopi = 2 * π) (hmn : 0 < k.mn) (he : 0 < ecm) (hm : k.mass z a = .ok m) (hb : 0 < lenSq fun i => p i / m) {f : ℝ}
    (hf : f = kinetic k.mn fun i => p i / m) {E : ℝ} (h0 : (√ecm - √f) ^ 2 ≤ E) (h1 : E ≤ (√ecm + √f) ^ 2) :
    probIn (neutronBoost k z a p ecm none) {x | x.1.energy ≤ E} =
      ENNReal.ofReal ((E - (√ecm - √f) ^ 2) / ((√ecm + √f) ^ 2 - (√ecm - √f) ^ 2)) := by
  have m0 : m ≠ 0 := by
    rintro rfl
    simp [lenSq] at hb
  have f0 : 0 < f := by
    rw [hf, kinetic, dot_self]
    positivity
  have e1 := sq_sqrt he.le
  have e2 := sq_sqrt f0.le
  have q : 0 < 2 * (√ecm * √f) := by have := sqrt_pos.2 he; have := sqrt_pos.2 f0; positivity
  have c0 : -1 ≤ (E - ecm - f) / (2 * (√ecm * √f)) := by
    rw [le_div_iff₀ q]
    nlinarith
  have c1 : (E - ecm - f) / (2 * (√ecm * √f)) ≤ 1 := by
    rw [div_le_one q]
    nlinarith
  have meas : MeasurableSet {v : V3 | dot v (unitDir fun i => p i / m) ≤ (E - ecm - f) / (2 * (√ecm * √f))} := by
    refine measurableSet_le ?_ measurable_const
    unfold dot
    fun_prop
  have e : probIn (neutronBoost k z a p ecm none) {x | x.1.energy ≤ E} = probIn (neutronBoost k z a p ecm none)
      {x | unitDir x.1.vcm ∈ {v : V3 | dot v (unitDir fun i => p i / m) ≤ (E - ecm - f) / (2 * (√ecm * √f))}} := by
    refine probIn_congr fun s x s' h => ?_
    obtain ⟨-, h2, -⟩ := emitted_angle hmn he hm hb h
    rw [← hf] at h2
    show x.1.energy ≤ E ↔ dot (unitDir x.1.vcm) (unitDir fun i => p i / m) ≤ _
    rw [h2, le_div_iff₀ q]
    constructor <;> intro h <;> linarith
  rw [e, C100_neutron hk hmn p he hm m0 _ meas, solid_cap (lenSq_unit hb) c0 c1]
  congr 1
  have d : (√ecm + √f) ^ 2 - (√ecm - √f) ^ 2 = 2 * (2 * (√ecm * √f)) := by ring
  have n : E - (√ecm - √f) ^ 2 = (E - ecm - f) + 2 * (√ecm * √f) := by
    rw [sub_sq, e1, e2]
    ring
  rw [d, n]
  field_simp
  ring

/-- **C158**, focusing: seen in the laboratory a neutron goes into the half of the directions along the motion of the fragment with the
probability `(1+√(f/ecm))/2`, and always if the fragment is at least as fast as the neutron. -/
theorem C158_forward (hk : k.twopi = 2 * π) (hmn : 0 < k.mn) (he : 0 < ecm) (hm : k.mass z a = .ok m) (m0 : 0 < m) (hb : 0 < lenSq fun i => p i / m)
    {f : ℝ} (hf : f = kinetic k.mn fun i => p i / m) :
    probIn (neutronBoost k z a p ecm none) {x | 0 ≤ dot x.1.v p} = ENNReal.ofReal ((1 + min 1 (√f / √ecm)) / 2) := by
  have f0 : 0 < f := by
    rw [hf, kinetic, dot_self]
    positivity
  have se := sqrt_pos.2 he
  have sf := sqrt_pos.2 f0
  set u := unitDir fun i => p i / m with hu
  have hn : lenSq (fun i => -u i) = 1 := by rw [← lenSq_unit hb, ← hu]; simp [lenSq]
  have meas : MeasurableSet {v : V3 | dot v (fun i => -u i) ≤ min 1 (√f / √ecm)} := by
    refine measurableSet_le ?_ measurable_const
    unfold dot
    fun_prop
  have e : probIn (neutronBoost k z a p ecm none) {x | 0 ≤ dot x.1.v p} = probIn (neutronBoost k z a p ecm none)
      {x | unitDir x.1.vcm ∈ {v : V3 | dot v (fun i => -u i) ≤ min 1 (√f / √ecm)}} := by
    refine probIn_congr fun s x s' h => ?_
    obtain ⟨h1, -, h3⟩ := emitted_angle hmn he hm hb h
    rw [← hf, ← hu] at h3
    have hd : dot x.1.v p = m * dot x.1.v fun i => p i / m := by
      simp only [dot, Fin.sum_univ_three]
      field_simp
    have hneg : dot (unitDir x.1.vcm) (fun i => -u i) = -dot (unitDir x.1.vcm) u := by
      simp only [dot, Fin.sum_univ_three]
      ring
    have one := dot_le_one h1 hn
    show 0 ≤ dot x.1.v p ↔ dot (unitDir x.1.vcm) (fun i => -u i) ≤ min 1 (√f / √ecm)
    rw [le_min_iff, and_iff_right one, hneg, hd, h3, le_div_iff₀ se]
    have q : 0 < m * (2 / k.mn * √f) := by positivity
    rw [show m * (2 / k.mn * √f * (√ecm * dot (unitDir x.1.vcm) u + √f)) = m * (2 / k.mn * √f) * (√ecm * dot (unitDir x.1.vcm) u + √f) by ring,
      mul_nonneg_iff_of_pos_left q]
    constructor <;> intro h <;> linarith
  rw [e, C100_neutron hk hmn p he hm m0.ne' _ meas, solid_cap hn (le_min (by norm_num) (by linarith [div_pos sf se])) (min_le_left _ _)]

/-- A fragment of mass 80 at half of the speed of the neutron: three quarters go forward; the energies are uniform from 1/8 to 9/8, in units
in which the neutron has 1/2 in the frame of the fragment. -/
example : probIn (neutronBoost roundWorld 30 80 ![0, 0, 40] (1 / 2) none) {x | 0 ≤ dot x.1.v ![0, 0, 40]} = ENNReal.ofReal (3 / 4) ∧
    probIn (neutronBoost roundWorld 30 80 ![0, 0, 40] (1 / 2) none) {x | x.1.energy ≤ 3 / 8} = ENNReal.ofReal (1 / 4) := by
  have hmn : roundWorld.mn = 1 := by simp [Const.mn, roundWorld]
  have hm : roundWorld.mass 30 80 = .ok 80 := by simp [Const.mass, roundWorld]
  have hb : 0 < lenSq fun i => (![0, 0, 40] : V3) i / 80 := by
    simp [lenSq]
  have hf : (1 / 8 : ℝ) = kinetic roundWorld.mn fun i => (![0, 0, 40] : V3) i / 80 := by
    rw [hmn, kinetic, dot_self]
    simp [lenSq]
    norm_num
  have r : √(1 / 2 : ℝ) = 2 * √(1 / 8) := by
    rw [show (1 / 2 : ℝ) = 2 ^ 2 * (1 / 8) by norm_num, sqrt_mul (by norm_num), sqrt_sq (by norm_num)]
  have q := sq_sqrt (show (0 : ℝ) ≤ 1 / 8 by norm_num)
  have q0 : 0 < √(1 / 8 : ℝ) := sqrt_pos.2 (by norm_num)
  have lo : (√(1 / 2 : ℝ) - √(1 / 8)) ^ 2 = 1 / 8 := by rw [r]; linear_combination q
  have hi : (√(1 / 2 : ℝ) + √(1 / 8)) ^ 2 = 9 / 8 := by rw [r]; linear_combination 9 * q
  constructor
  · rw [C158_forward rfl (by rw [hmn]; exact one_pos) (by norm_num) hm (by norm_num) hb hf]
    congr 1
    rw [r, div_mul_cancel_right₀ q0.ne', min_eq_right (by norm_num)]
    norm_num
  · rw [C158_energy rfl (by rw [hmn]; exact one_pos) (by norm_num) hm hb hf (by rw [lo]; norm_num) (by rw [hi]; norm_num), lo, hi]
    norm_num

end CGMF.Props

import Verif.Model.KD
import Verif.Spec.Optical
import Verif.Proofs.OpticalW
import Verif.Tactics
import Mathlib.Analysis.SpecialFunctions.Exponential
import Mathlib.Analysis.Complex.ExponentialBounds

/-!
# Lemmas for the neutron optical potential
-/

namespace CGMF.KD

open CGMF.Opt

theorem cbrt_cube (A : Nat) : cbrt A ^ 3 = (A : ℝ) := by
  unfold cbrt
  rw [← Real.rpow_natCast, ← Real.rpow_mul (Nat.cast_nonneg A)]
  norm_num

theorem cbrt_nonneg (A : Nat) : 0 ≤ cbrt A := Real.rpow_nonneg (Nat.cast_nonneg A) _

theorem cbrt_ge {A : Nat} {c : ℝ} (h : c ^ 3 ≤ (A : ℝ)) : c ≤ cbrt A := by
  rw [← cbrt_cube] at h
  exact le_of_pow_le_pow_left₀ (by norm_num) (cbrt_nonneg A) h

theorem cbrt_le {A : Nat} {c : ℝ} (hc : 0 ≤ c) (h : (A : ℝ) ≤ c ^ 3) : cbrt A ≤ c := by
  rw [← cbrt_cube] at h
  exact le_of_pow_le_pow_left₀ (by norm_num) hc h

/-- Energy above the Fermi energy. -/
noncomputable def exN (e : ℝ) (A : Nat) : ℝ := e - (-11.2814 + 0.02646 * (A : ℝ))
noncomputable def vrN (e : ℝ) (Z A : Nat) : ℝ :=
  (59.30 - 21.0 * (1 - 2 * (Z : ℝ) / A) - 0.024 * A) *
    (1 - exN e A * ((0.007228 - 0.00000148 * A) - exN e A * ((0.00001994 - 0.00000002 * A) - exN e A * 0.000000007)))
noncomputable def viN (e : ℝ) (A : Nat) : ℝ :=
  (12.195 + 0.0167 * A) * exN e A * exN e A / (exN e A * exN e A + (73.55 + 0.0795 * A) * (73.55 + 0.0795 * A))
noncomputable def d2N (A : Nat) : ℝ := 0.0180 + 0.003802 / (1 + Real.exp (((A : ℝ) - 156) / 8))
noncomputable def siN (e : ℝ) (Z A : Nat) : ℝ :=
  (16.0 - 16.0 * (1 - 2 * (Z : ℝ) / A)) * Real.exp (-d2N A * exN e A) * exN e A * exN e A /
    (exN e A * exN e A + 132.25)
noncomputable def vsoN (e : ℝ) (A : Nat) : ℝ := (5.922 + 0.0030 * A) * Real.exp (-0.0040 * exN e A)
noncomputable def wsoN (e : ℝ) (A : Nat) : ℝ := -3.1 * exN e A * exN e A / (exN e A * exN e A + 25600)

/-- The potential of a neutron, in closed form. -/
noncomputable def fullN (e : ℝ) (Z A : Nat) : Full where
  c :=
    { vr := vrN e Z A, vi := viN e A, sr := 0, si := siN e Z A
      r0 := (1.3039 - 0.4054 / cbrt A) * cbrt A, a0 := 0.6778 - 0.0001487 * A, r0s := 0, a0s := 0
      rv := (1.3039 - 0.4054 / cbrt A) * cbrt A, av := 0.6778 - 0.0001487 * A
      rs := (1.3424 - 0.01585 * cbrt A) * cbrt A, as := 0.5446 - 0.0001656 * A }
  vso := vsoN e A
  wso := wsoN e A
  rvso := (1.1854 - 0.647 / cbrt A) * cbrt A
  avso := 0.59
  rwso := (1.1854 - 0.647 / cbrt A) * cbrt A
  awso := 0.59

section bounds

variable {e : ℝ} {Z A : Nat}

theorem exN_pos (he : 0 ≤ e) (hA : A ≤ 300) : 3 ≤ exN e A := by
  have : (A : ℝ) ≤ 300 := by exact_mod_cast hA
  unfold exN; norm_num; linarith

theorem exN_le (he : e ≤ 100) : exN e A ≤ 112 := by
  have : (0 : ℝ) ≤ A := Nat.cast_nonneg A
  unfold exN; norm_num; linarith

theorem ratio_bounds (hA1 : 1 ≤ A) (hZ : Z ≤ A) : 0 ≤ (Z : ℝ) / A ∧ (Z : ℝ) / A ≤ 1 := by
  have h1 : (0 : ℝ) < A := by exact_mod_cast hA1
  exact ⟨by positivity, by rw [div_le_one h1]; exact_mod_cast hZ⟩

theorem vrN_bounds (hA1 : 1 ≤ A) (hA : A ≤ 300) (hZ : Z ≤ A) (he : 0 ≤ e) (he' : e ≤ 100) :
    1 ≤ vrN e Z A ∧ vrN e Z A ≤ 200 := by
  have h3 := exN_pos he hA
  have h4 := exN_le (A := A) he'
  obtain ⟨z0, z1⟩ := ratio_bounds hA1 hZ
  have a0 : (1 : ℝ) ≤ A := by exact_mod_cast hA1
  have a1 : (A : ℝ) ≤ 300 := by exact_mod_cast hA
  unfold vrN
  rw [mul_div_assoc]
  generalize exN e A = x at *
  generalize (Z : ℝ) / A = z at *
  generalize (A : ℝ) = a at *
  have p1 : 31 ≤ 59.30 - 21.0 * (1 - 2 * z) - 0.024 * a := by norm_num; linarith
  have p2 : 59.30 - 21.0 * (1 - 2 * z) - 0.024 * a ≤ 81 := by norm_num; linarith
  have q3 : 0 ≤ (0.00001994 - 0.00000002 * a) - x * 0.000000007 ∧
      (0.00001994 - 0.00000002 * a) - x * 0.000000007 ≤ 0.00002 := by
    constructor <;> norm_num <;> linarith
  generalize (0.00001994 - 0.00000002 * a) - x * 0.000000007 = q at *
  have q2 : 0.0045 ≤ (0.007228 - 0.00000148 * a) - x * q ∧ (0.007228 - 0.00000148 * a) - x * q ≤ 0.00723 := by
    have : 0 ≤ x * q := mul_nonneg (by linarith) q3.1
    have : x * q ≤ 112 * 0.00002 := mul_le_mul h4 q3.2 q3.1 (by norm_num)
    constructor <;> norm_num at * <;> linarith
  generalize (0.007228 - 0.00000148 * a) - x * q = r at *
  have q1 : 0.19 ≤ 1 - x * r ∧ 1 - x * r ≤ 1 := by
    have : 0 ≤ x * r := mul_nonneg (by linarith) (by norm_num at *; linarith)
    have : x * r ≤ 112 * 0.00723 := mul_le_mul h4 q2.2 (by norm_num at *; linarith) (by norm_num)
    constructor <;> norm_num at * <;> linarith
  generalize 1 - x * r = s at *
  generalize 59.30 - 21.0 * (1 - 2 * z) - 0.024 * a = v at *
  constructor
  · norm_num at *; nlinarith
  · norm_num at *; nlinarith

theorem viN_bounds (hA : A ≤ 300) (he : 0 ≤ e) : 0 < viN e A ∧ viN e A ≤ 20 := by
  have h3 := exN_pos he hA
  have a0 : (0 : ℝ) ≤ A := Nat.cast_nonneg A
  have a1 : (A : ℝ) ≤ 300 := by exact_mod_cast hA
  unfold viN
  generalize exN e A = x at *
  generalize (A : ℝ) = a at *
  have hx : 0 < x := by linarith
  constructor
  · positivity
  · rw [div_le_iff₀ (by positivity)]
    have : 0 ≤ x * x := by positivity
    have : 0 ≤ (73.55 + 0.0795 * a) * (73.55 + 0.0795 * a) := by positivity
    have : 12.195 + 0.0167 * a ≤ 20 := by norm_num; linarith
    nlinarith

theorem d2N_pos : 0 < d2N A := by
  unfold d2N
  have := Real.exp_pos (((A : ℝ) - 156) / 8)
  positivity

theorem siN_bounds (hA1 : 1 ≤ A) (hA : A ≤ 300) (hZ1 : 1 ≤ Z) (hZ : Z ≤ A) (he : 0 ≤ e) :
    0 < siN e Z A ∧ siN e Z A ≤ 32 := by
  have h3 := exN_pos he hA
  obtain ⟨z0, z1⟩ := ratio_bounds hA1 hZ
  have zp : 0 < (Z : ℝ) / A := by
    have : (0 : ℝ) < A := by exact_mod_cast hA1
    have : (0 : ℝ) < Z := by exact_mod_cast hZ1
    positivity
  have hd := d2N_pos (A := A)
  unfold siN
  rw [mul_div_assoc 2]
  have hE : Real.exp (-d2N A * exN e A) ≤ 1 := by
    rw [Real.exp_le_one_iff]
    nlinarith
  have hE0 := Real.exp_pos (-d2N A * exN e A)
  generalize Real.exp (-d2N A * exN e A) = t at *
  generalize exN e A = x at *
  generalize (Z : ℝ) / A = z at *
  have hx : 0 < x := by linarith
  have hd1 : 16.0 - 16.0 * (1 - 2 * z) = 32 * z := by norm_num; ring
  rw [hd1]
  constructor
  · positivity
  · rw [div_le_iff₀ (by positivity)]
    have : 0 ≤ x * x := by positivity
    have : 32 * z * t ≤ 32 := by nlinarith
    have : 32 * z * t * x * x ≤ 32 * (x * x) := by nlinarith
    norm_num
    linarith

theorem vsoN_bounds (hA : A ≤ 300) (he : 0 ≤ e) : 0 < vsoN e A ∧ vsoN e A ≤ 7 := by
  have h3 := exN_pos he hA
  have a0 : (0 : ℝ) ≤ A := Nat.cast_nonneg A
  have a1 : (A : ℝ) ≤ 300 := by exact_mod_cast hA
  unfold vsoN
  have hE0 := Real.exp_pos (-0.0040 * exN e A)
  have hE : Real.exp (-0.0040 * exN e A) ≤ 1 := by
    rw [Real.exp_le_one_iff]
    norm_num at *
    linarith
  generalize Real.exp (-0.0040 * exN e A) = t at *
  constructor
  · positivity
  · have : 5.922 + 0.0030 * (A : ℝ) ≤ 7 := by norm_num; linarith
    have : 0 ≤ 5.922 + 0.0030 * (A : ℝ) := by positivity
    nlinarith

theorem wsoN_bounds (hA : A ≤ 300) (he : 0 ≤ e) : wsoN e A < 0 ∧ |wsoN e A| ≤ 3.1 := by
  have h3 := exN_pos he hA
  unfold wsoN
  generalize exN e A = x at *
  have hx : 0 < x := by linarith
  have hn : -3.1 * x * x / (x * x + 25600) = -(3.1 * x * x / (x * x + 25600)) := by ring
  have hp : 0 < 3.1 * x * x / (x * x + 25600) := by positivity
  rw [hn]
  refine ⟨by linarith, ?_⟩
  rw [abs_neg, abs_of_pos hp, div_le_iff₀ (by positivity)]
  norm_num
  nlinarith

theorem r0_eq (hA1 : 1 ≤ A) (c d : ℝ) : (c - d / cbrt A) * cbrt A = c * cbrt A - d := by
  have : (1 : ℝ) ≤ cbrt A := cbrt_ge (by norm_num; exact_mod_cast hA1)
  have : cbrt A ≠ 0 := by linarith
  field_simp

theorem cbrt_bounds (hA1 : 1 ≤ A) (hA : A ≤ 300) : 1 ≤ cbrt A ∧ cbrt A ≤ 6.7 := by
  refine ⟨cbrt_ge (by norm_num; exact_mod_cast hA1), cbrt_le (by norm_num) ?_⟩
  have : (A : ℝ) ≤ 300 := by exact_mod_cast hA
  norm_num
  linarith

end bounds

/-- `omSetOmp` for a neutron. -/
theorem setOmp_neutron (other : Nat → ℝ → Nat → Nat → Nat → Nat → Par → Nat × Par) {e : ℝ} {Z A : Nat}
    (hA1 : 1 ≤ A) (hA : A ≤ 300) (hZ1 : 1 ≤ Z) (hZ : Z ≤ A) (he : 0 ≤ e) (he' : e ≤ 100) :
    setOmp other (6 <<< 8) e Z A 0 1 = (0x613, fullN e Z A) := by
  have v := vrN_bounds hA1 hA hZ he he'
  have w := viN_bounds hA he
  have s := siN_bounds hA1 hA hZ1 hZ he
  have o := vsoN_bounds hA he
  have k : koningDelaroche e A Z 1 0 initOmp = (0x13,
      { initOmp with
        r0 := 1.3039 - 0.4054 / cbrt A, rs := 1.3424 - 0.01585 * cbrt A, rv := 1.3039 - 0.4054 / cbrt A
        rvso := 1.1854 - 0.647 / cbrt A, rwso := 1.1854 - 0.647 / cbrt A, rc := 0
        a0 := 0.6778 - 0.0001487 * A, av := 0.6778 - 0.0001487 * A, avso := 0.59, awso := 0.59
        as := 0.5446 - 0.0001656 * A
        v1 := vrN e Z A, v2 := 0, v3 := 0, ws1 := siN e Z A, ws2 := 0, ws3 := 0, wv1 := viN e A, wv2 := 0
        wv3 := 0, vso1 := vsoN e A, vso2 := 0, wso1 := wsoN e A, wso2 := 0 }) := by
    unfold koningDelaroche vrN siN viN vsoN wsoN d2N exN
    simp
  have hid : (6 <<< 8) >>> 8 = 6 := by decide
  unfold setOmp ompLibrary
  rw [hid, if_pos rfl, k]
  simp only [initOmp, zero_mul, add_zero, clampOmp, not_le.mpr (lt_of_lt_of_le one_pos v.1),
    not_le.mpr w.1, not_le.mpr s.1, not_le.mpr o.1, if_false]
  norm_num [fullN]
  rfl

/-! ## The matching radius -/

theorem foldl_max (r : List ℝ) : ∀ m : ℝ,
    m ≤ r.foldl (fun m y => if m < y then y else m) m ∧
    (∀ y ∈ r, y ≤ r.foldl (fun m y => if m < y then y else m) m) ∧
    ∀ B, m ≤ B → (∀ y ∈ r, y ≤ B) → r.foldl (fun m y => if m < y then y else m) m ≤ B := by
  induction r with
  | nil => intro m; simp
  | cons z r ih =>
    intro m
    obtain ⟨h1, h2, h3⟩ := ih (if m < z then z else m)
    rw [List.foldl_cons]
    have hm : m ≤ if m < z then z else m := by split <;> linarith
    have hz : z ≤ if m < z then z else m := by split <;> linarith
    refine ⟨hm.trans h1, ?_, ?_⟩
    · intro y hy
      rcases List.mem_cons.mp hy with rfl | hy
      · exact hz.trans h1
      · exact h2 y hy
    · intro B hB hr
      refine h3 B ?_ fun y hy => hr y (List.mem_cons_of_mem _ hy)
      split
      · exact hr z (List.mem_cons_self ..)
      · exact hB

theorem le_radMax {xs : List ℝ} {x : ℝ} (h : x ∈ xs) : x ≤ radMax xs := by
  cases xs with
  | nil => cases h
  | cons y r =>
    rcases List.mem_cons.mp h with rfl | h
    · exact (foldl_max r _).1
    · exact (foldl_max r y).2.1 x h

theorem radMax_le {xs : List ℝ} {B : ℝ} (hB : 0 ≤ B) (h : ∀ x ∈ xs, x ≤ B) : radMax xs ≤ B := by
  cases xs with
  | nil => exact hB
  | cons y r =>
    exact (foldl_max r y).2.2 B (h y (List.mem_cons_self ..)) fun z hz => h z (List.mem_cons_of_mem _ hz)

theorem log_bound {X e : ℝ} (hX : 0 < X) (hX' : X ≤ 200) (he : 1 / 10 ^ 20 ≤ e) :
    Real.log (X / e) - Real.log critMatching ≤ 66 := by
  have e0 : 0 < e := lt_of_lt_of_le (by positivity) he
  have c0 : 0 < critMatching := by norm_num [critMatching]
  rw [← Real.log_div (by positivity) c0.ne', Real.log_le_iff_le_exp (by positivity), div_div, div_le_iff₀ (by positivity)]
  have h1 : (2.7 : ℝ) ^ 66 ≤ Real.exp 66 := by
    have : Real.exp 66 = Real.exp 1 ^ 66 := by rw [← Real.exp_nat_mul]; norm_num
    rw [this]
    exact pow_le_pow_left₀ (by norm_num) (by have := Real.exp_one_gt_d9; norm_num at *; linarith) 66
  have h2 : (2 : ℝ) * 10 ^ 28 ≤ Real.exp 66 := le_trans (by norm_num) h1
  have h3 : (1 / 10 ^ 20 : ℝ) * critMatching ≤ e * critMatching := mul_le_mul_of_nonneg_right he c0.le
  have h4 : (2 : ℝ) * 10 ^ 28 * ((1 / 10 ^ 20 : ℝ) * critMatching) ≤ Real.exp 66 * (e * critMatching) :=
    mul_le_mul h2 h3 (by positivity) (Real.exp_pos _).le
  norm_num [critMatching] at h4
  norm_num [critMatching]
  linarith

theorem rad_le {R a X e : ℝ} (ha : 0 < a) (ha' : a ≤ 0.7) (hR : R ≤ 9) (hX : 0 < X) (hX' : X ≤ 200)
    (he : 1 / 10 ^ 20 ≤ e) : R + a * (Real.log (X / e) - Real.log critMatching) ≤ 58 := by
  have h := log_bound hX hX' he
  generalize Real.log (X / e) - Real.log critMatching = L at *
  norm_num at ha'
  nlinarith

/-- Beyond the candidate radius the exponential tail is below the criterion. -/
theorem tail {R a X e r : ℝ} (ha : 0 < a) (hX : 0 < X) (he : 0 < e)
    (h : R + a * (Real.log (X / e) - Real.log critMatching) ≤ r) :
    X * Real.exp (-((r - R) / a)) ≤ critMatching * e := by
  have c0 : 0 < critMatching := by norm_num [critMatching]
  have h1 : Real.log (X / e) - Real.log critMatching ≤ (r - R) / a := by
    rw [le_div_iff₀ ha]; linarith
  have h2 : Real.exp (-((r - R) / a)) ≤ Real.exp (-(Real.log (X / e) - Real.log critMatching)) :=
    Real.exp_le_exp.mpr (by linarith)
  rw [← Real.log_div (by positivity) c0.ne', Real.exp_neg (Real.log _), Real.exp_log (by positivity)] at h2
  calc X * Real.exp (-((r - R) / a)) ≤ X * (X / e / critMatching)⁻¹ := mul_le_mul_of_nonneg_left h2 hX.le
    _ = critMatching * e := by field_simp

/-- Geometry of the neutron potential. -/
theorem geometry {e : ℝ} {Z A : Nat} (hA1 : 1 ≤ A) (hA : A ≤ 300) :
    (0 < (fullN e Z A).c.r0 ∧ (fullN e Z A).c.r0 ≤ 9) ∧ (0 < (fullN e Z A).c.rs ∧ (fullN e Z A).c.rs ≤ 9) ∧
    (0.5 ≤ (fullN e Z A).rvso ∧ (fullN e Z A).rvso ≤ (fullN e Z A).c.r0) ∧
    (0 < (fullN e Z A).c.a0 ∧ (fullN e Z A).c.a0 ≤ 0.7) ∧ (0 < (fullN e Z A).c.as ∧ (fullN e Z A).c.as ≤ 0.7) := by
  obtain ⟨c1, c2⟩ := cbrt_bounds hA1 hA
  have a0 : (0 : ℝ) ≤ A := Nat.cast_nonneg A
  have a1 : (A : ℝ) ≤ 300 := by exact_mod_cast hA
  simp only [fullN, r0_eq hA1]
  norm_num at c2
  refine ⟨⟨?_, ?_⟩, ⟨?_, ?_⟩, ⟨?_, ?_⟩, ⟨?_, ?_⟩, ⟨?_, ?_⟩⟩ <;> norm_num <;> first | linarith | nlinarith

/-- The candidate radii for a neutron. -/
theorem radii_neutron {e : ℝ} {Z A : Nat} (hA : A ≤ 300) (he : 0 ≤ e) :
    radii 0x13 (fullN e Z A) e =
      [(fullN e Z A).c.r0 + (fullN e Z A).c.a0 * (Real.log (vrN e Z A / e) - Real.log critMatching), 0,
       (fullN e Z A).c.r0 + (fullN e Z A).c.a0 * (Real.log (viN e A / e) - Real.log critMatching),
       (fullN e Z A).c.rs + (fullN e Z A).c.as * (Real.log (4 * siN e Z A / e) - Real.log critMatching),
       (fullN e Z A).rvso + 0.59 * (Real.log (vsoN e A * cspo / (0.59 * (fullN e Z A).rvso) / e) - Real.log critMatching),
       (fullN e Z A).rvso + 0.59 * (Real.log (|wsoN e A| * cspo / (0.59 * (fullN e Z A).rvso) / e) - Real.log critMatching)] := by
  have o := vsoN_bounds hA he
  have w := wsoN_bounds hA he
  have h1 : (0x13 &&& 0x10 : Nat) ≠ 0 := by decide
  have h2 : ¬ (0x13 &&& 0x20 : Nat) ≠ 0 := by decide
  have h3 : (0x13 &&& 0x01 : Nat) ≠ 0 := by decide
  have h4 : (0x13 &&& 0x02 : Nat) ≠ 0 := by decide
  have h5 : ¬ (0x13 &&& 0x04 : Nat) ≠ 0 := by decide
  unfold radii
  simp only [if_pos h1, if_neg h2, if_pos h3, if_pos h4, if_neg h5]
  have h6 : (fullN e Z A).vso ≠ 0 := o.1.ne'
  have h7 : (fullN e Z A).wso ≠ 0 := w.1.ne
  rw [if_pos h6, if_pos h7]
  simp only [fullN, div_div]

theorem radMax_bounds {e : ℝ} {Z A : Nat} (hA1 : 1 ≤ A) (hA : A ≤ 300) (hZ1 : 1 ≤ Z) (hZ : Z ≤ A)
    (he : 1 / 10 ^ 20 ≤ e) (he' : e ≤ 100) :
    0 ≤ radMax (radii 0x13 (fullN e Z A) e) ∧ radMax (radii 0x13 (fullN e Z A) e) ≤ 58 := by
  have e0 : 0 ≤ e := le_trans (by positivity) he
  rw [radii_neutron hA e0]
  have v := vrN_bounds hA1 hA hZ e0 he'
  have w := viN_bounds hA e0
  have s := siN_bounds hA1 hA hZ1 hZ e0
  have o := vsoN_bounds hA e0
  have q := wsoN_bounds hA e0
  obtain ⟨g1, g2, g3, g4, g5⟩ := geometry (e := e) (Z := Z) hA1 hA
  have r0 : 0 < (fullN e Z A).rvso := by have := g3.1; norm_num at this; linarith
  have key : ∀ X : ℝ, 0 ≤ X → X ≤ 7 → X * cspo / (0.59 * (fullN e Z A).rvso) ≤ 200 := by
    intro X h0 h1
    rw [div_le_iff₀ (by positivity)]
    have := g3.1
    norm_num [cspo] at *
    linarith
  refine ⟨le_radMax (by simp), radMax_le (by norm_num) ?_⟩
  intro x hx
  simp only [List.mem_cons, List.not_mem_nil, or_false] at hx
  rcases hx with rfl | rfl | rfl | rfl | rfl | rfl
  · exact rad_le g4.1 g4.2 g1.2 (by linarith) v.2 he
  · norm_num
  · exact rad_le g4.1 g4.2 g1.2 w.1 (by linarith) he
  · exact rad_le g5.1 g5.2 g2.2 (by linarith) (by linarith) he
  · exact rad_le (by norm_num) (by norm_num) (by linarith) (div_pos (mul_pos o.1 (by norm_num [cspo])) (by positivity))
      (key _ o.1.le o.2) he
  · exact rad_le (by norm_num) (by norm_num) (by linarith)
      (div_pos (mul_pos (abs_pos.mpr q.1.ne) (by norm_num [cspo])) (by positivity))
      (key _ (abs_nonneg _) (by have := q.2; norm_num at *; linarith)) he

/-! ## Absorption -/

/-- `1 - 1/(1+exp((x-R)/a))` is small against `x`, for the spin-orbit geometry of masses from 60 on. -/
theorem slope {R x : ℝ} (hR : 3.99 ≤ R) (hx : 0.2 ≤ x) :
    Real.exp ((x - R) / 0.59) / (1 + Real.exp ((x - R) / 0.59)) ≤ 0.185 * x := by
  have x0 : 0 < x := by norm_num at hx; linarith
  have hy : Real.exp ((x - R) / 0.59) ≤ Real.exp (-((3.99 - x) / 0.59)) := by
    rw [Real.exp_le_exp, ← neg_div]
    exact div_le_div_of_nonneg_right (by linarith) (by norm_num)
  have y0 := Real.exp_pos ((x - R) / 0.59)
  rw [Real.exp_neg] at hy
  have s0 := Real.exp_pos ((3.99 - x) / 0.59)
  have hs : Real.exp ((x - R) / 0.59) * Real.exp ((3.99 - x) / 0.59) ≤ 1 := by
    calc _ ≤ (Real.exp ((3.99 - x) / 0.59))⁻¹ * Real.exp ((3.99 - x) / 0.59) := mul_le_mul_of_nonneg_right hy s0.le
      _ = 1 := inv_mul_cancel₀ s0.ne'
  have goal : 1 ≤ 0.185 * x * (1 + Real.exp ((3.99 - x) / 0.59)) := by
    have step : ∀ p q : ℝ, 0 ≤ p → p ≤ x → x ≤ q → 0 ≤ 1 + (3.99 - q) / 4.72 →
        1 ≤ 0.185 * p * (1 + (1 + (3.99 - q) / 4.72) ^ 8) →
        1 ≤ 0.185 * x * (1 + Real.exp ((3.99 - x) / 0.59)) := by
      intro p q p0 hp hq h0 h1
      have e1 : (1 + (3.99 - q) / 4.72) ^ 8 ≤ Real.exp ((3.99 - x) / 0.59) := by
        have : Real.exp ((3.99 - x) / 0.59) = Real.exp ((3.99 - x) / 4.72) ^ 8 := by
          rw [← Real.exp_nat_mul]; congr 1; norm_num; ring
        rw [this]
        refine pow_le_pow_left₀ h0 ?_ 8
        have h2 := Real.add_one_le_exp ((3.99 - x) / 4.72)
        have h3 : (3.99 - q) / 4.72 ≤ (3.99 - x) / 4.72 := div_le_div_of_nonneg_right (by linarith) (by norm_num)
        linarith
      refine h1.trans ?_
      exact mul_le_mul (by linarith) (by linarith) (by positivity) (by positivity)
    by_cases c1 : x ≤ 0.5
    · exact step 0.2 0.5 (by norm_num) hx c1 (by norm_num) (by norm_num)
    by_cases c2 : x ≤ 2
    · exact step 0.5 2 (by norm_num) (by linarith) c2 (by norm_num) (by norm_num)
    by_cases c3 : x ≤ 3.5
    · exact step 2 3.5 (by norm_num) (by linarith) c3 (by norm_num) (by norm_num)
    by_cases c4 : x ≤ 4.2
    · exact step 3.5 4.2 (by norm_num) (by linarith) c4 (by norm_num) (by norm_num)
    by_cases c5 : x ≤ 4.6
    · exact step 4.2 4.6 (by norm_num) (by linarith) c5 (by norm_num) (by norm_num)
    by_cases c6 : x ≤ 4.85
    · exact step 4.6 4.85 (by norm_num) (by linarith) c6 (by norm_num) (by norm_num)
    by_cases c7 : x ≤ 5
    · exact step 4.85 5 (by norm_num) (by linarith) c7 (by norm_num) (by norm_num)
    by_cases c8 : x ≤ 5.2
    · exact step 5 5.2 (by norm_num) (by linarith) c8 (by norm_num) (by norm_num)
    by_cases c9 : x ≤ 5.41
    · exact step 5.2 5.41 (by norm_num) (by linarith) c9 (by norm_num) (by norm_num)
    have : 5.41 < x := not_le.mp c9
    have h1 : 1 ≤ 0.185 * x := by norm_num at *; linarith
    nlinarith
  rw [div_le_iff₀ (by positivity)]
  generalize Real.exp ((x - R) / 0.59) = y at *
  generalize Real.exp ((3.99 - x) / 0.59) = s at *
  have h2 : y ≤ y * (0.185 * x * (1 + s)) := by nlinarith
  have h3 : y * (0.185 * x * (1 + s)) = 0.185 * x * (y + y * s) := by ring
  have h4 : 0.185 * x * (y + y * s) ≤ 0.185 * x * (y + 1) := by
    refine mul_le_mul_of_nonneg_left (by linarith) (by positivity)
  linarith

/-- The imaginary spin-orbit depth is small against the imaginary volume depth. -/
theorem depth_ratio {e : ℝ} {A : Nat} (hA1 : 60 ≤ A) (hA : A ≤ 260) (he : 0 ≤ e) (he' : e ≤ 30) :
    12.83 * |wsoN e A| ≤ viN e A := by
  have h3 := exN_pos (e := e) (A := A) he (by omega)
  have a0 : (60 : ℝ) ≤ A := by exact_mod_cast hA1
  have a1 : (A : ℝ) ≤ 260 := by exact_mod_cast hA
  have h4 : exN e A ≤ 41.2814 - 0.02646 * A := by unfold exN; norm_num; linarith
  rw [abs_of_neg (wsoN_bounds (by omega) he).1]
  unfold wsoN viN
  generalize exN e A = x at *
  generalize (A : ℝ) = a at *
  have hx : 0 < x := by linarith
  rw [← neg_div, ← mul_div_assoc, div_le_div_iff₀ (by positivity) (by positivity)]
  have key : 12.83 * 3.1 * (x * x + (73.55 + 0.0795 * a) * (73.55 + 0.0795 * a)) ≤
      (12.195 + 0.0167 * a) * (x * x + 25600) := by
    by_cases c1 : a ≤ 140
    · have w1 : 13.197 ≤ 12.195 + 0.0167 * a := by norm_num; linarith
      have w2 : (73.55 + 0.0795 * a) * (73.55 + 0.0795 * a) ≤ 84.68 * 84.68 :=
        mul_self_le_mul_self (by positivity) (by norm_num; linarith)
      have hx2 : x * x ≤ 39.7 * 39.7 := mul_self_le_mul_self hx.le (by norm_num at *; linarith)
      generalize 12.195 + 0.0167 * a = u at *
      generalize (73.55 + 0.0795 * a) * (73.55 + 0.0795 * a) = v at *
      have := mul_le_mul_of_nonneg_right w1 (show 0 ≤ x * x + 25600 by positivity)
      norm_num at *
      linarith
    by_cases c2 : a ≤ 200
    · have w1 : 14.533 ≤ 12.195 + 0.0167 * a := by norm_num; linarith
      have w2 : (73.55 + 0.0795 * a) * (73.55 + 0.0795 * a) ≤ 89.45 * 89.45 :=
        mul_self_le_mul_self (by positivity) (by norm_num; linarith)
      have hx2 : x * x ≤ 37.6 * 37.6 := mul_self_le_mul_self hx.le (by norm_num at *; linarith)
      generalize 12.195 + 0.0167 * a = u at *
      generalize (73.55 + 0.0795 * a) * (73.55 + 0.0795 * a) = v at *
      have := mul_le_mul_of_nonneg_right w1 (show 0 ≤ x * x + 25600 by positivity)
      norm_num at *
      linarith
    · have w1 : 15.535 ≤ 12.195 + 0.0167 * a := by norm_num; linarith
      have w2 : (73.55 + 0.0795 * a) * (73.55 + 0.0795 * a) ≤ 94.22 * 94.22 :=
        mul_self_le_mul_self (by positivity) (by norm_num; linarith)
      have hx2 : x * x ≤ 36 * 36 := mul_self_le_mul_self hx.le (by norm_num at *; linarith)
      generalize 12.195 + 0.0167 * a = u at *
      generalize (73.55 + 0.0795 * a) * (73.55 + 0.0795 * a) = v at *
      have := mul_le_mul_of_nonneg_right w1 (show 0 ≤ x * x + 25600 by positivity)
      norm_num at *
      linarith
  have hm := mul_le_mul_of_nonneg_left key (show 0 ≤ x * x by positivity)
  linarith

theorem form_ratio {A : Nat} (hA1 : 60 ≤ A) (hA : A ≤ 260) {x : ℝ} (hx : 0 ≤ x) :
    (x - (1.3039 * cbrt A - 0.4054)) / (0.6778 - 0.0001487 * A) ≤ (x - (1.1854 * cbrt A - 0.647)) / 0.59 := by
  have a0 : (60 : ℝ) ≤ A := by exact_mod_cast hA1
  have a1 : (A : ℝ) ≤ 260 := by exact_mod_cast hA
  have c2 : cbrt A ≤ 6.39 := cbrt_le (by norm_num) (by norm_num; linarith)
  have c1 : 1 ≤ cbrt A := cbrt_ge (by norm_num; linarith)
  have p : (0 : ℝ) < 0.6778 - 0.0001487 * A := by norm_num; linarith
  have p1 : (0.6778 : ℝ) - 0.0001487 * A ≤ 0.66888 := by norm_num; linarith
  have p2 : (0.59 : ℝ) ≤ 0.6778 - 0.0001487 * A := by norm_num; linarith
  rw [div_le_div_iff₀ p (by norm_num)]
  generalize (0.6778 : ℝ) - 0.0001487 * A = u at *
  generalize cbrt A = c at *
  have h1 : (1.1854 * c - 0.647) * u ≤ (1.1854 * c - 0.647) * 0.66888 :=
    mul_le_mul_of_nonneg_left p1 (by norm_num at *; linarith)
  have h2 : x * 0.59 ≤ x * u := mul_le_mul_of_nonneg_left p2 hx
  norm_num at *
  linarith

/-- For `l ≤ 20` the spin-orbit term never outweighs the absorption. -/
theorem absorbs {e : ℝ} {A : Nat} (hA1 : 60 ≤ A) (hA : A ≤ 260) (he : 0 ≤ e) (he' : e ≤ 30) {l x : ℝ}
    (hl : l ≤ 20) (hx : 0.2 ≤ x) :
    l * cspo * |wsoN e A| * thomas x ((1.1854 - 0.647 / cbrt A) * cbrt A) 0.59 ≤
      viN e A * woodsSaxon Real.exp x ((1.3039 - 0.4054 / cbrt A) * cbrt A) (0.6778 - 0.0001487 * A) := by
  have x0 : 0 < x := by norm_num at hx; linarith
  have a0 : (60 : ℝ) ≤ A := by exact_mod_cast hA1
  have hc : 3.914 ≤ cbrt A := cbrt_ge (by norm_num; linarith)
  have hr := depth_ratio hA1 hA he he'
  have hf := form_ratio hA1 hA x0.le
  rw [r0_eq (by omega), r0_eq (by omega)]
  have hsl := slope (R := 1.1854 * cbrt A - 0.647) (by norm_num at *; linarith) hx
  unfold thomas woodsSaxon
  rw [if_neg x0.ne']
  simp only
  have y0 := Real.exp_pos ((x - (1.1854 * cbrt A - 0.647)) / 0.59)
  have z0 := Real.exp_pos ((x - (1.3039 * cbrt A - 0.4054)) / (0.6778 - 0.0001487 * A))
  have zy := Real.exp_le_exp.mpr hf
  generalize Real.exp ((x - (1.1854 * cbrt A - 0.647)) / 0.59) = y at *
  generalize Real.exp ((x - (1.3039 * cbrt A - 0.4054)) / (0.6778 - 0.0001487 * A)) = z at *
  have w0 := abs_nonneg (wsoN e A)
  generalize |wsoN e A| = w at *
  generalize viN e A = v at *
  have h1 : y / (x * 0.59 * (1 + y) * (1 + y)) ≤ 0.185 / 0.59 * (1 / (1 + y)) := by
    have : y / (x * 0.59 * (1 + y) * (1 + y)) = y / (1 + y) / x * (1 / 0.59) * (1 / (1 + y)) := by
      field_simp
    rw [this]
    refine mul_le_mul_of_nonneg_right ?_ (by positivity)
    have h2 : y / (1 + y) / x ≤ 0.185 := by rw [div_le_iff₀ x0]; exact hsl
    have := mul_le_mul_of_nonneg_right h2 (show (0 : ℝ) ≤ 1 / 0.59 by norm_num)
    linarith
  have h3 : 1 / (1 + y) ≤ 1 / (1 + z) := one_div_le_one_div_of_le (by positivity) (by linarith)
  have h4 : l * cspo * w ≤ 20 * cspo * w := by
    refine mul_le_mul_of_nonneg_right (mul_le_mul_of_nonneg_right hl (by norm_num [cspo])) w0
  calc l * cspo * w * (y / (x * 0.59 * (1 + y) * (1 + y))) ≤ 20 * cspo * w * (0.185 / 0.59 * (1 / (1 + y))) :=
        mul_le_mul h4 h1 (by positivity) (by norm_num [cspo]; positivity)
    _ ≤ 12.83 * w * (1 / (1 + y)) := by
        have : 20 * cspo * w * (0.185 / 0.59 * (1 / (1 + y))) = 20 * cspo * (0.185 / 0.59) * (w * (1 / (1 + y))) := by ring
        rw [this, mul_assoc 12.83]
        exact mul_le_mul_of_nonneg_right (by norm_num [cspo]) (by positivity)
    _ ≤ v * (1 / (1 + y)) := mul_le_mul_of_nonneg_right hr (by positivity)
    _ ≤ v * (1 / (1 + z)) := mul_le_mul_of_nonneg_left h3 (by
        have : 0 ≤ 12.83 * w := by positivity
        linarith)

/-! ## The tables -/

theorem fill_read {α : Type} (f : Nat → α) (k : Nat) (xs : List α) (h : k ≤ xs.length) :
    ∃ ys, fillArr f k 0 xs = .ok ys ∧ ys.length = xs.length ∧ ∀ i, i < k → ys[i]? = some (f i) := by
  rw [fillArr_spec, if_pos (Or.inr (by omega))]
  refine ⟨_, rfl, by simp, fun i hi => ?_⟩
  rw [List.getElem?_map, List.getElem?_range (by omega)]
  simp [hi]

/-- The mesh of a neutron: it exists, and what the tables hold. -/
theorem mesh_ok (other : Nat → ℝ → Nat → Nat → Nat → Nat → Par → Nat × Par) (junk : Pot ℝ) {e : ℝ} (mu : ℝ)
    {Z A : Nat} (hj : junk.radi.length = 300 ∧ junk.mean.length = 300 ∧ junk.so.length = 300)
    (hA1 : 1 ≤ A) (hA : A ≤ 300) (hZ1 : 1 ≤ Z) (hZ : Z ≤ A) (he : 1 / 10 ^ 20 ≤ e) (he' : e ≤ 100) :
    ∃ m, neutronMesh other junk e mu Z A = .ok m ∧ 4 ≤ m.n ∧ m.n ≤ 294 ∧
      radMax (radii 0x13 (fullN e Z A) e) < m.rad ∧ m.rad = 0.2 * ((m.n - 3 : Int) : ℝ) ∧
      ∀ i : Nat, (i : Int) ≤ m.n →
        m.pot.radi[i]? = some (((i : ℝ) * 0.2) * ((i : ℝ) * 0.2)) ∧
        m.pot.mean[i]? = some
          ⟨vrN e Z A * woodsSaxon Real.exp ((i : ℝ) * 0.2) (fullN e Z A).c.r0 (fullN e Z A).c.a0 * (mu * twoMu),
           (viN e A * woodsSaxon Real.exp ((i : ℝ) * 0.2) (fullN e Z A).c.r0 (fullN e Z A).c.a0 +
            siN e Z A * derivWS Real.exp ((i : ℝ) * 0.2) (fullN e Z A).c.rs (fullN e Z A).c.as) * (mu * twoMu)⟩ ∧
        m.pot.so[i]? = some
          ⟨vsoN e A * thomas ((i : ℝ) * 0.2) (fullN e Z A).rvso 0.59 * (mu * twoMu * cspo),
           wsoN e A * thomas ((i : ℝ) * 0.2) (fullN e Z A).rvso 0.59 * (mu * twoMu * cspo)⟩ := by
  have e0 : 0 ≤ e := le_trans (by positivity) he
  have o := vsoN_bounds hA e0
  have q := wsoN_bounds hA e0
  obtain ⟨b1, b2⟩ := radMax_bounds hA1 hA hZ1 hZ he he'
  unfold neutronMesh
  rw [setOmp_neutron other hA1 hA hZ1 hZ e0 he']
  simp only
  have hf : (0x613 &&& 0xff : Nat) = 0x13 := by decide
  rw [hf]
  unfold potentialForm integWidth
  obtain ⟨n, n1, n2, n3, n4⟩ := meshPoints_spec (K := ℝ) (width := 0.2) (by norm_num) b1
  have n5 : n ≤ 291 := by
    have : (n : ℝ) < 292 := by norm_num at *; linarith
    have : n < 292 := by exact_mod_cast this
    omega
  rw [n4, if_neg (by omega)]
  simp only [Res.bind_ok]
  have hk : (n + 3).toNat + 1 ≤ 300 := by omega
  obtain ⟨ra, f1, f2, f3⟩ := fill_read (fun i : Nat => ((i : ℝ) * 0.2) * ((i : ℝ) * 0.2)) ((n + 3).toNat + 1) junk.radi
    (by omega)
  rw [f1]
  simp only [Res.bind_ok]
  obtain ⟨me, g1, g2, g3⟩ := fill_read (fun i : Nat =>
      (⟨(radialMean Real.exp ((0x13 &&& 0xff) >>> 4) (0x13 &&& 0xf) ((i : ℝ) * 0.2) (fullN e Z A).c).re * (mu * twoMu),
        (radialMean Real.exp ((0x13 &&& 0xff) >>> 4) (0x13 &&& 0xf) ((i : ℝ) * 0.2) (fullN e Z A).c).im * (mu * twoMu)⟩ : Cx ℝ))
      ((n + 3).toNat + 1) junk.mean (by omega)
  rw [g1]
  simp only [Res.bind_ok]
  obtain ⟨so, k1, k2, k3⟩ := fill_read (fun i : Nat =>
      (⟨(radialSpo ((i : ℝ) * 0.2) (fullN e Z A)).re * (mu * twoMu * cspo),
        (radialSpo ((i : ℝ) * 0.2) (fullN e Z A)).im * (mu * twoMu * cspo)⟩ : Cx ℝ))
      ((n + 3).toNat + 1) junk.so (by omega)
  rw [k1]
  simp only [Res.bind_ok]
  refine ⟨_, rfl, by simp only; omega, by simp only; omega, n2, by push_cast; ring, ?_⟩
  intro i hi
  simp only at hi
  refine ⟨f3 i (by omega), ?_, ?_⟩
  · rw [g3 i (by omega)]
    rfl
  · rw [k3 i (by omega)]
    unfold radialSpo
    rw [if_pos (show (fullN e Z A).vso ≠ 0 from o.1.ne'), if_pos (show (fullN e Z A).wso ≠ 0 from q.1.ne)]
    rfl

/-- The integration reads the tables only up to its last point. -/
theorem qAt_congr {p p' : Pot ℝ} {i : Nat} (h : p.radi[i]? = p'.radi[i]? ∧ p.mean[i]? = p'.mean[i]? ∧ p.so[i]? = p'.so[i]?)
    (k2 xlt sot : ℝ) : qAt p k2 xlt sot (i : Int) = qAt p' k2 xlt sot (i : Int) := by
  have hr : ∀ {α : Type} (xs ys : List α), xs[i]? = ys[i]? → readAt xs (i : Int) = readAt ys (i : Int) := by
    intro α xs ys hxy
    unfold readAt
    simp only [Int.toNat_natCast]
    by_cases hx : i < xs.length
    · rw [List.getElem?_eq_getElem hx] at hxy
      obtain ⟨hy, hv⟩ := List.getElem?_eq_some_iff.mp hxy.symm
      rw [dif_pos ⟨by omega, hx⟩, dif_pos ⟨by omega, hy⟩, hv]
    · have hy : ¬ i < ys.length := by
        rw [List.getElem?_eq_none (by omega)] at hxy
        have := List.getElem?_eq_none_iff.mp hxy.symm
        omega
      rw [dif_neg (by tauto), dif_neg (by tauto)]
  unfold qAt
  rw [hr _ _ h.1, hr _ _ h.2.1, hr _ _ h.2.2]

theorem fgLoop_congr {p p' : Pot ℝ} {N : Nat}
    (h : ∀ i, i ≤ N → p.radi[i]? = p'.radi[i]? ∧ p.mean[i]? = p'.mean[i]? ∧ p.so[i]? = p'.so[i]?) (k2 d2 xlt sot : ℝ) :
    ∀ (n i : Nat) (q1 q2 p1 p2 : Cx ℝ) (acc : List (Cx ℝ)), i + n ≤ N + 1 →
      fgLoop p k2 d2 xlt sot n i q1 q2 p1 p2 acc = fgLoop p' k2 d2 xlt sot n i q1 q2 p1 p2 acc := by
  intro n
  induction n with
  | zero => intros; rfl
  | succ n ih =>
    intro i q1 q2 p1 p2 acc hi
    unfold fgLoop
    rw [qAt_congr (h i (by omega))]
    congr 1
    funext q3
    congr 1
    funext p3
    exact ih _ _ _ _ _ _ (by omega)

theorem internal_congr {p p' : Pot ℝ} {N : Nat} (hN : 1 ≤ N)
    (h : ∀ i, i ≤ N → p.radi[i]? = p'.radi[i]? ∧ p.mean[i]? = p'.mean[i]? ∧ p.so[i]? = p'.so[i]?)
    (d k2 l s j amp eps : ℝ) : internal N d k2 l s j amp eps p = internal N d k2 l s j amp eps p' := by
  unfold internal
  simp only
  have := qAt_congr (i := 1) (h 1 hN) k2 (l * (l + 1)) (j * (j + 1) - l * (l + 1) - s * (s + 1))
  rw [Nat.cast_one] at this
  rw [this]
  congr 1
  funext q2
  exact fgLoop_congr h _ _ _ _ _ _ _ _ _ _ _ (by omega)

end CGMF.KD

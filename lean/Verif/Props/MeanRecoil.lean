import Verif.Props.LabSpectrum
import Verif.Spec.Mean
import Mathlib.Probability.Independence.InfinitePi
import Mathlib.Probability.Independence.Integration
import Mathlib.Analysis.SpecialFunctions.Integrals.Basic

/-!
# C160: averages of momenta, velocities and energies along a chain of neutrons

Averages are over independent uniform random numbers.
-/

namespace CGMF.Props

open MeasureTheory ProbabilityTheory Real CGMF.Law CGMF.Kin CGMF.Isotropy CGMF.Spec

theorem mean_run {α : Type} {f : Rnd ℝ α} (hf : Local f) {n : Nat} {φ : α → ℝ} {X : (ℕ → ℝ) → ℝ}
    (h : ∀ ω, Inside ω → ∃ x, f (pre ω n) = .ok (x, []) ∧ φ x = X ω) : mean f φ = ∫ ω, X ω ∂stream := by
  apply integral_congr_ae
  have hin : ∀ᵐ ω ∂stream, Inside ω := by
    rw [ae_iff]
    exact stream_inside
  filter_upwards [hin] with ω hω
  obtain ⟨x, h1, h2⟩ := h ω hω
  have hex : ∃ a n, f (pre ω n) = .ok (a, []) := ⟨x, n, h1⟩
  rw [valueAt, dif_pos hex, ← h2]
  obtain ⟨m, hm⟩ := hex.choose_spec
  rw [(at_unique hf (show ω ∈ At f hex.choose m from hm) (show ω ∈ At f x n from h1)).1]

/-- Direction number `j` of a sequence. -/
noncomputable def dirAt (j : Nat) (ω : ℕ → ℝ) : V3 := dirOf (2 * ω (2 * j + 1) - 1) (2 * π * ω (2 * j))

theorem coord_mean (i : Nat) {g : ℝ → ℝ} (hg : Measurable g) : ∫ ω, g (ω i) ∂stream = ∫ x in (0 : ℝ)..1, g x := by
  have h : stream.map (fun ω : ℕ → ℝ => ω i) = unif := Measure.infinitePi_map_eval (fun _ => unif) i
  rw [← integral_map (φ := fun ω : ℕ → ℝ => ω i) (f := g) (measurable_pi_apply i).aemeasurable hg.aestronglyMeasurable, h,
    intervalIntegral.integral_of_le zero_le_one, unif, integral_Ico_eq_integral_Ioc]

theorem coords_indep : iIndepFun (fun (i : ℕ) (ω : ℕ → ℝ) => ω i) stream :=
  iIndepFun_infinitePi (P := fun _ : ℕ => unif) (X := fun _ x => x) fun _ => measurable_id

theorem cos_mean : ∫ x in (0 : ℝ)..1, cos (2 * π * x) = 0 := by
  rw [intervalIntegral.integral_comp_mul_left _ (by positivity)]
  simp

theorem sin_mean : ∫ x in (0 : ℝ)..1, sin (2 * π * x) = 0 := by
  rw [intervalIntegral.integral_comp_mul_left _ (by positivity)]
  simp

theorem line_mean : ∫ x in (0 : ℝ)..1, (2 * x - 1) = 0 := by
  rw [intervalIntegral.integral_sub (Continuous.intervalIntegrable (by fun_prop) _ _) (Continuous.intervalIntegrable (by fun_prop) _ _),
    intervalIntegral.integral_const_mul]
  simp

theorem measurable_dirAt (j : Nat) (i : Fin 3) : Measurable fun ω => dirAt j ω i := by
  unfold dirAt dirOf
  fin_cases i
  · show Measurable fun ω : ℕ → ℝ => √(1 - (2 * ω (2 * j + 1) - 1) ^ 2) * cos (2 * π * ω (2 * j))
    fun_prop
  · show Measurable fun ω : ℕ → ℝ => √(1 - (2 * ω (2 * j + 1) - 1) ^ 2) * sin (2 * π * ω (2 * j))
    fun_prop
  · show Measurable fun ω : ℕ → ℝ => 2 * ω (2 * j + 1) - 1
    fun_prop

theorem product_mean (j : Nat) {g h : ℝ → ℝ} (hg : Measurable g) (hh : Measurable h) (h0 : ∫ x in (0 : ℝ)..1, h x = 0) :
    ∫ ω, g (ω (2 * j + 1)) * h (ω (2 * j)) ∂stream = 0 := by
  have ind : IndepFun (fun ω : ℕ → ℝ => g (ω (2 * j + 1))) (fun ω => h (ω (2 * j))) stream :=
    (coords_indep.indepFun (show 2 * j + 1 ≠ 2 * j by omega)).comp hg hh
  rw [ind.integral_fun_mul_eq_mul_integral (hg.comp (measurable_pi_apply _)).aestronglyMeasurable
    (hh.comp (measurable_pi_apply _)).aestronglyMeasurable, coord_mean _ hh, h0, mul_zero]

/-- No direction is preferred. -/
theorem dirAt_mean (j : Nat) (i : Fin 3) : ∫ ω, dirAt j ω i ∂stream = 0 := by
  unfold dirAt dirOf
  fin_cases i
  · exact product_mean j (g := fun x => √(1 - (2 * x - 1) ^ 2)) (h := fun x => cos (2 * π * x)) (by fun_prop) (by fun_prop) cos_mean
  · exact product_mean j (g := fun x => √(1 - (2 * x - 1) ^ 2)) (h := fun x => sin (2 * π * x)) (by fun_prop) (by fun_prop) sin_mean
  · exact (coord_mean (2 * j + 1) (g := fun x => 2 * x - 1) (by fun_prop)).trans line_mean

/-- Different directions are uncorrelated. -/
theorem dirAt_cross {j l : Nat} (h : j ≠ l) (i : Fin 3) : ∫ ω, dirAt j ω i * dirAt l ω i ∂stream = 0 := by
  have m : Measurable fun y : ℝ × ℝ => dirOf (2 * y.2 - 1) (2 * π * y.1) i := by
    unfold dirOf
    fin_cases i
    · show Measurable fun y : ℝ × ℝ => √(1 - (2 * y.2 - 1) ^ 2) * cos (2 * π * y.1)
      fun_prop
    · show Measurable fun y : ℝ × ℝ => √(1 - (2 * y.2 - 1) ^ 2) * sin (2 * π * y.1)
      fun_prop
    · show Measurable fun y : ℝ × ℝ => 2 * y.2 - 1
      fun_prop
  have ind : IndepFun (fun ω => dirAt j ω i) (fun ω => dirAt l ω i) stream :=
    (coords_indep.indepFun_prodMk_prodMk (fun i => measurable_pi_apply i) (2 * j) (2 * j + 1) (2 * l) (2 * l + 1)
      (by omega) (by omega) (by omega) (by omega)).comp m m
  rw [ind.integral_fun_mul_eq_mul_integral (measurable_dirAt j i).aestronglyMeasurable (measurable_dirAt l i).aestronglyMeasurable,
    dirAt_mean, zero_mul]

theorem dirAt_len (j : Nat) {ω : ℕ → ℝ} (hω : Inside ω) : lenSq (dirAt j ω) = 1 := by
  have h1 := hω (2 * j + 1)
  have hc : 0 ≤ 1 - (2 * ω (2 * j + 1) - 1) ^ 2 := by nlinarith
  have e := sq_sqrt hc
  have t := sin_sq_add_cos_sq (2 * π * ω (2 * j))
  show (√(1 - (2 * ω (2 * j + 1) - 1) ^ 2) * cos (2 * π * ω (2 * j))) ^ 2 + (√(1 - (2 * ω (2 * j + 1) - 1) ^ 2) * sin (2 * π * ω (2 * j))) ^ 2 +
    (2 * ω (2 * j + 1) - 1) ^ 2 = 1
  linear_combination (√(1 - (2 * ω (2 * j + 1) - 1) ^ 2)) ^ 2 * t + e

theorem inside_ae : ∀ᵐ ω ∂stream, Inside ω := by
  rw [ae_iff]
  exact stream_inside

instance : IsProbabilityMeasure stream := by
  unfold stream
  infer_instance

theorem dirAt_abs (j : Nat) (i : Fin 3) {ω : ℕ → ℝ} (hω : Inside ω) : |dirAt j ω i| ≤ 1 := by
  have h := dirAt_len j hω
  unfold lenSq at h
  rw [abs_le_one_iff_mul_self_le_one]
  fin_cases i <;> simp only [Fin.zero_eta, Fin.mk_one, Fin.reduceFinMk] <;>
    nlinarith [sq_nonneg (dirAt j ω 0), sq_nonneg (dirAt j ω 1), sq_nonneg (dirAt j ω 2)]

theorem dirAt_integrable (j : Nat) (i : Fin 3) : Integrable (fun ω => dirAt j ω i) stream := by
  refine Integrable.of_bound (measurable_dirAt j i).aestronglyMeasurable 1 ?_
  filter_upwards [inside_ae] with ω hω
  exact dirAt_abs j i hω

theorem cross_integrable (j l : Nat) (i : Fin 3) : Integrable (fun ω => dirAt j ω i * dirAt l ω i) stream := by
  refine Integrable.of_bound ((measurable_dirAt j i).mul (measurable_dirAt l i)).aestronglyMeasurable 1 ?_
  filter_upwards [inside_ae] with ω hω
  rw [norm_mul]
  exact mul_le_one₀ (dirAt_abs j i hω) (norm_nonneg _) (dirAt_abs l i hω)

/-- A vector that depends linearly on the first `n` directions. -/
noncomputable def form (p : V3) (c : ℝ) (n : Nat) (w : Nat → ℝ) (ω : ℕ → ℝ) : V3 := fun i => c * p i + ∑ j ∈ Finset.range n, w j * dirAt j ω i

theorem form_mean (p : V3) (c : ℝ) (n : Nat) (w : Nat → ℝ) (i : Fin 3) : ∫ ω, form p c n w ω i ∂stream = c * p i := by
  unfold form
  rw [integral_add (integrable_const _) (integrable_finsetSum _ fun j _ => (dirAt_integrable j i).const_mul _), integral_finsetSum _
    fun j _ => (dirAt_integrable j i).const_mul _]
  simp [integral_const_mul, dirAt_mean]

theorem form_square (p : V3) (c : ℝ) (n : Nat) (w : Nat → ℝ) :
    ∫ ω, lenSq (form p c n w ω) ∂stream = c ^ 2 * lenSq p + ∑ j ∈ Finset.range n, w j ^ 2 := by
  induction n with
  | zero => simp [form, lenSq]; ring
  | succ n ih =>
    have e : ∀ᵐ ω ∂stream, lenSq (form p c (n + 1) w ω) = lenSq (form p c n w ω) + w n ^ 2 +
        ∑ i : Fin 3, (2 * (w n * (c * p i)) * dirAt n ω i + ∑ j ∈ Finset.range n, 2 * (w n * w j) * (dirAt j ω i * dirAt n ω i)) := by
      filter_upwards [inside_ae] with ω hω
      have h := dirAt_len n hω
      have s : ∀ i, form p c (n + 1) w ω i = form p c n w ω i + w n * dirAt n ω i := by
        intro i
        simp only [form, Finset.sum_range_succ]
        ring
      have t : ∀ i, 2 * (w n * (c * p i)) * dirAt n ω i + ∑ j ∈ Finset.range n, 2 * (w n * w j) * (dirAt j ω i * dirAt n ω i) =
          2 * (w n * dirAt n ω i) * form p c n w ω i := by
        intro i
        simp only [form, mul_add, Finset.mul_sum]
        congr 1
        · ring
        · exact Finset.sum_congr rfl fun j _ => by ring
      simp only [t, Fin.sum_univ_three]
      unfold lenSq at h ⊢
      rw [s, s, s]
      linear_combination (w n) ^ 2 * h
    have i1 : ∀ m, Integrable (fun ω => lenSq (form p c m w ω)) stream := by
      intro m
      have q : ∀ i, Integrable (fun ω => form p c m w ω i ^ 2) stream := by
        intro i
        have e : (fun ω => form p c m w ω i ^ 2) = fun ω => (c * p i) ^ 2 + 2 * (c * p i) * ∑ j ∈ Finset.range m, w j * dirAt j ω i +
            ∑ j ∈ Finset.range m, ∑ l ∈ Finset.range m, w j * w l * (dirAt j ω i * dirAt l ω i) := by
          funext ω
          have : ∑ j ∈ Finset.range m, ∑ l ∈ Finset.range m, w j * w l * (dirAt j ω i * dirAt l ω i) =
              (∑ j ∈ Finset.range m, w j * dirAt j ω i) * ∑ j ∈ Finset.range m, w j * dirAt j ω i := by
            rw [Finset.sum_mul_sum]
            exact Finset.sum_congr rfl fun j _ => Finset.sum_congr rfl fun l _ => by ring
          rw [this]
          unfold form
          ring
        rw [e]
        exact ((integrable_const _).add ((integrable_finsetSum _ fun j _ => (dirAt_integrable j i).const_mul _).const_mul _)).add
          (integrable_finsetSum _ fun j _ => integrable_finsetSum _ fun l _ => (cross_integrable j l i).const_mul _)
      exact ((q 0).add (q 1)).add (q 2)
    have i2 : ∀ i : Fin 3, Integrable (fun ω => 2 * (w n * (c * p i)) * dirAt n ω i +
        ∑ j ∈ Finset.range n, 2 * (w n * w j) * (dirAt j ω i * dirAt n ω i)) stream := fun i =>
      ((dirAt_integrable n i).const_mul _).add (integrable_finsetSum _ fun j _ => (cross_integrable j n i).const_mul _)
    have z : ∀ i : Fin 3, ∫ ω, (2 * (w n * (c * p i)) * dirAt n ω i +
        ∑ j ∈ Finset.range n, 2 * (w n * w j) * (dirAt j ω i * dirAt n ω i)) ∂stream = 0 := by
      intro i
      rw [integral_add ((dirAt_integrable n i).const_mul _) (integrable_finsetSum _ fun j _ => (cross_integrable j n i).const_mul _),
        integral_finsetSum _ fun j _ => (cross_integrable j n i).const_mul _, integral_const_mul, dirAt_mean, mul_zero, zero_add]
      refine Finset.sum_eq_zero fun j hj => ?_
      rw [integral_const_mul, dirAt_cross (Finset.mem_range.1 hj).ne, mul_zero]
    have i3 : Integrable (fun ω => lenSq (form p c n w ω) + w n ^ 2) stream := (i1 n).add (integrable_const _)
    rw [integral_congr_ae e, integral_add i3 (integrable_finsetSum _ fun i _ => i2 i),
      integral_add (i1 n) (integrable_const _), integral_finsetSum _ fun i _ => i2 i, ih, Finset.sum_range_succ]
    simp only [z]
    simp
    ring

/-- The weights after one more direction. -/
theorem form_step (p : V3) (c : ℝ) (n : Nat) (w : Nat → ℝ) (α β : ℝ) (ω : ℕ → ℝ) :
    form p (α * c) (n + 1) (fun j => if j = n then β else α * w j) ω = fun i => α * form p c n w ω i + β * dirAt n ω i := by
  funext i
  simp only [form, Finset.sum_range_succ, if_true, mul_add, Finset.mul_sum]
  rw [Finset.sum_congr rfl fun j hj => by rw [if_neg (Finset.mem_range.1 hj).ne, mul_assoc]]
  ring

theorem weights_step (n : Nat) (w : Nat → ℝ) (α β : ℝ) :
    ∑ j ∈ Finset.range (n + 1), (if j = n then β else α * w j) ^ 2 = α ^ 2 * ∑ j ∈ Finset.range n, w j ^ 2 + β ^ 2 := by
  rw [Finset.sum_range_succ, if_pos rfl, Finset.mul_sum]
  congr 1
  exact Finset.sum_congr rfl fun j hj => by rw [if_neg (Finset.mem_range.1 hj).ne, mul_pow]

/-- A chain of neutrons: momentum and velocities are linear in the directions. -/
theorem chain_run {k : Const} (hk : k.twopi = 2 * π) (hmn : 0 < k.mn) {z : Int} (p : V3) : ∀ (l : List (ℝ × ℝ)) (a : Int) (c : ℝ) (n : Nat) (w : Nat → ℝ),
    (∀ (i : Nat) (h : i < l.length), k.mass z (a - i) = .ok l[i].1 ∧ l[i].1 ≠ 0 ∧ 0 ≤ l[i].2) →
    ∃ (W : Nat → ℝ) (V : Nat → Nat → ℝ),
      (∀ Q, (shareLeft k.mn l * c) ^ 2 * Q + ∑ j ∈ Finset.range (n + l.length), W j ^ 2 =
        squareLeft k.mn l (c ^ 2 * Q + ∑ j ∈ Finset.range n, w j ^ 2)) ∧
      (∀ (i : Nat) (h : i < l.length) (Q : ℝ), (shareLeft k.mn (l.take i) / l[i].1 * c) ^ 2 * Q + ∑ j ∈ Finset.range (n + i + 1), V i j ^ 2 =
        squareLeft k.mn (l.take i) (c ^ 2 * Q + ∑ j ∈ Finset.range n, w j ^ 2) / l[i].1 ^ 2 + 2 * l[i].2 / k.mn) ∧
      ∀ ω, Inside ω → ∀ t, ∃ es, boostNeutrons k z a (form p c n w ω) (l.map (·.2)) (pre (shift (2 * n) ω) (2 * l.length) ++ t) =
        .ok ((es, form p (shareLeft k.mn l * c) (n + l.length) W ω), t) ∧
        ∀ (i : Nat) (h : i < l.length), ∃ e, es[i]? = some e ∧ e.v = form p (shareLeft k.mn (l.take i) / l[i].1 * c) (n + i + 1) (V i) ω ∧
          e.energy = k.mn / 2 * lenSq e.v
  | [], a, c, n, w, _ => by
    refine ⟨w, fun _ => w, fun Q => by simp [shareLeft, squareLeft], fun i h => absurd h (by simp), fun ω _ t => ⟨[], ?_, fun i h => absurd h (by simp)⟩⟩
    simp only [shareLeft, one_mul, List.length_nil, Nat.add_zero]
    rfl
  | x :: l, a, c, n, w, hl => by
    obtain ⟨hm, hm0, he⟩ := hl 0 (by simp)
    simp only [Nat.cast_zero, sub_zero, List.getElem_cons_zero] at hm hm0 he
    have hv : 0 ≤ 2 * x.2 / k.mn := by positivity
    have hvs := sq_sqrt hv
    set α := 1 - k.mn / x.1 with hα
    obtain ⟨W, V, h1, h2, h3⟩ := chain_run hk hmn p l (a - 1) (α * c) (n + 1)
      (fun j => if j = n then -(k.mn * √(2 * x.2 / k.mn)) else α * w j) (by
        intro i h
        have := hl (i + 1) (by simpa using h)
        simp only [List.getElem_cons_succ] at this
        refine ⟨?_, this.2⟩
        rw [← this.1]
        congr 1
        push_cast
        ring)
    have sq : ∀ Q, (α * c) ^ 2 * Q + ∑ j ∈ Finset.range (n + 1), (if j = n then -(k.mn * √(2 * x.2 / k.mn)) else α * w j) ^ 2 =
        α ^ 2 * (c ^ 2 * Q + ∑ j ∈ Finset.range n, w j ^ 2) + 2 * k.mn * x.2 := by
      intro Q
      rw [weights_step, neg_sq, mul_pow k.mn, hvs]
      field_simp
      ring
    refine ⟨W, fun i => if i = 0 then (fun j => if j = n then √(2 * x.2 / k.mn) else 1 / x.1 * w j) else V (i - 1), ?_, ?_, ?_⟩
    · intro Q
      have := h1 Q
      rw [sq] at this
      rw [List.length_cons, show n + (l.length + 1) = n + 1 + l.length by omega]
      show ((α * shareLeft k.mn l) * c) ^ 2 * Q + _ = squareLeft k.mn l (α ^ 2 * _ + 2 * k.mn * x.2)
      rw [← this]
      ring
    · intro i h Q
      match i with
      | 0 =>
        simp only [List.take_zero, shareLeft, squareLeft, if_true, List.getElem_cons_zero, Nat.add_zero]
        rw [weights_step, hvs]
        field_simp
        ring
      | i + 1 =>
        have hi : i < l.length := by simpa using h
        have := h2 i hi Q
        rw [sq] at this
        rw [show n + (i + 1) + 1 = n + 1 + i + 1 by omega]
        beta_reduce
        rw [if_neg (by omega), show i + 1 - 1 = i by omega]
        simp only [List.getElem_cons_succ, List.take_succ_cons]
        show ((α * shareLeft k.mn (l.take i)) / l[i].1 * c) ^ 2 * Q + _ = squareLeft k.mn (l.take i) (α ^ 2 * _ + 2 * k.mn * x.2) / _ + _
        rw [← this]
        ring
    · intro ω hω t
      have r1 := hω (2 * n + 1)
      have hc : (2 * ω (2 * n + 1) - 1) * (2 * ω (2 * n + 1) - 1) ≤ 1 := by nlinarith
      obtain ⟨y, p', hy, hd, hyv, hp'⟩ := neutronBoost_run (k := k) (z := z) (a := a) (p := form p c n w ω) (ecm := x.2) (tab := none)
        (s := ω (2 * n + 1) :: (pre (shift (2 * (n + 1)) ω) (2 * l.length) ++ t)) (s1 := pre (shift (2 * (n + 1)) ω) (2 * l.length) ++ t)
        (r := ω (2 * n)) (c := 2 * ω (2 * n + 1) - 1) hm rfl hc hm0 hmn.ne' hv
      have hdir : ∀ i, y.vcm i = √(2 * x.2 / k.mn) * dirAt n ω i := by
        intro i
        rw [hd, hk]
        unfold dirAt dirOf
        rw [pow_two (2 * ω (2 * n + 1) - 1)]
        fin_cases i
        · exact mul_assoc _ _ _
        · exact mul_assoc _ _ _
        · rfl
      have hp : p' = form p (α * c) (n + 1) (fun j => if j = n then -(k.mn * √(2 * x.2 / k.mn)) else α * w j) ω := by
        rw [form_step, hp', hyv]
        funext i
        beta_reduce
        rw [hdir, hα]
        ring
      obtain ⟨es, hes, hlist⟩ := h3 ω hω t
      refine ⟨y :: es, ?_, ?_⟩
      · have hpre : pre (shift (2 * n) ω) (2 * (x :: l).length) ++ t =
            ω (2 * n) :: ω (2 * n + 1) :: (pre (shift (2 * (n + 1)) ω) (2 * l.length) ++ t) := by
          rw [List.length_cons, show 2 * (l.length + 1) = 2 * l.length + 2 by ring, pre_two_more]
          have : shift 2 (shift (2 * n) ω) = shift (2 * (n + 1)) ω := by
            funext j
            show ω (2 * n + (2 + j)) = ω (2 * (n + 1) + j)
            congr 1
            ring
          rw [this]
          rfl
        rw [hpre]
        show (neutronBoost k z a _ x.2 none >>= _) _ = _
        rw [Rnd.bind_of_ok hy]
        show (boostNeutrons k z (a - 1) p' (l.map (·.2)) >>= _) _ = _
        rw [hp, Rnd.bind_of_ok hes, List.length_cons, show n + (l.length + 1) = n + 1 + l.length by omega,
          show shareLeft k.mn (x :: l) * c = shareLeft k.mn l * (α * c) by rw [shareLeft]; ring]
        rfl
      · intro i h
        match i with
        | 0 =>
          refine ⟨y, rfl, ?_, ?_⟩
          · simp only [List.take_zero, shareLeft, if_true, List.getElem_cons_zero, Nat.add_zero]
            rw [form_step, hyv]
            funext i
            beta_reduce
            rw [hdir]
            ring
          · obtain ⟨-, -, -, h5, -⟩ := C35_momentum hy
            rw [h5, kinetic, dot_self]
            ring
        | i + 1 =>
          obtain ⟨e, he1, he2, he3⟩ := hlist i (by simpa using h)
          refine ⟨e, he1, ?_, he3⟩
          rw [show n + (i + 1) + 1 = n + 1 + i + 1 by omega, he2]
          beta_reduce
          rw [if_neg (by omega), show i + 1 - 1 = i by omega]
          simp only [List.getElem_cons_succ, List.take_succ_cons]
          congr 1
          rw [shareLeft]
          ring

variable {k : Const} {z a : Int} {p : V3} {l : List (ℝ × ℝ)}

theorem form_start (p : V3) (w : Nat → ℝ) (ω : ℕ → ℝ) : form p 1 0 w ω = p := by
  funext i
  simp [form]

/-- **C160**, momentum: after a chain of neutrons from nuclei with the masses and energies of the list `l` the momentum of the fragment is on
average what it would be if each neutron only took its share: recoils cancel. -/
theorem C160_momentum (hk : k.twopi = 2 * π) (hmn : 0 < k.mn)
    (hl : ∀ (i : Nat) (h : i < l.length), k.mass z (a - i) = .ok l[i].1 ∧ l[i].1 ≠ 0 ∧ 0 ≤ l[i].2) (i : Fin 3) :
    mean (boostNeutrons k z a p (l.map (·.2))) (fun x => x.2 i) = shareLeft k.mn l * p i := by
  obtain ⟨W, V, -, -, h3⟩ := chain_run hk hmn p l a 1 0 (fun _ => 0) hl
  rw [← mul_one (shareLeft k.mn l), ← form_mean p _ (0 + l.length) W i]
  refine mean_run (local_neutrons k z _ a p) (n := 2 * l.length) fun ω hω => ?_
  obtain ⟨es, h, -⟩ := h3 ω hω []
  rw [form_start, List.append_nil, show shift (2 * 0) ω = ω by funext j; simp [shift]] at h
  exact ⟨_, h, rfl⟩

/-- **C160**, square of the momentum: on average each neutron adds the square of its own momentum. -/
theorem C160_square (hk : k.twopi = 2 * π) (hmn : 0 < k.mn)
    (hl : ∀ (i : Nat) (h : i < l.length), k.mass z (a - i) = .ok l[i].1 ∧ l[i].1 ≠ 0 ∧ 0 ≤ l[i].2) :
    mean (boostNeutrons k z a p (l.map (·.2))) (fun x => lenSq x.2) = squareLeft k.mn l (lenSq p) := by
  obtain ⟨W, V, h1, -, h3⟩ := chain_run hk hmn p l a 1 0 (fun _ => 0) hl
  have e := h1 (lenSq p)
  rw [one_pow, one_mul, Finset.range_zero, Finset.sum_empty, add_zero] at e
  rw [← e, ← form_square]
  refine mean_run (local_neutrons k z _ a p) (n := 2 * l.length) fun ω hω => ?_
  obtain ⟨es, h, -⟩ := h3 ω hω []
  rw [form_start, List.append_nil, show shift (2 * 0) ω = ω by funext j; simp [shift]] at h
  exact ⟨_, h, rfl⟩

/-- **C160**, velocity: neutron number `j` has on average the velocity of the fragment without recoils. -/
theorem C160_velocity (hk : k.twopi = 2 * π) (hmn : 0 < k.mn)
    (hl : ∀ (i : Nat) (h : i < l.length), k.mass z (a - i) = .ok l[i].1 ∧ l[i].1 ≠ 0 ∧ 0 ≤ l[i].2) {j : Nat} (hj : j < l.length) (i : Fin 3) :
    mean (boostNeutrons k z a p (l.map (·.2))) (fun x => (x.1[j]?.map fun e => e.v i).getD 0) = shareLeft k.mn (l.take j) * p i / l[j].1 := by
  obtain ⟨W, V, -, -, h3⟩ := chain_run hk hmn p l a 1 0 (fun _ => 0) hl
  rw [show shareLeft k.mn (l.take j) * p i / l[j].1 = shareLeft k.mn (l.take j) / l[j].1 * 1 * p i by ring, ← form_mean p _ (0 + j + 1) (V j) i]
  refine mean_run (local_neutrons k z _ a p) (n := 2 * l.length) fun ω hω => ?_
  obtain ⟨es, h, hes⟩ := h3 ω hω []
  rw [form_start, List.append_nil, show shift (2 * 0) ω = ω by funext j; simp [shift]] at h
  obtain ⟨e, e1, e2, -⟩ := hes j hj
  refine ⟨_, h, ?_⟩
  simp only [e1, Option.map_some, Option.getD_some, e2]

/-- **C160**, energy: neutron number `j` has on average its energy in the frame of the fragment plus that from the mean square of the velocity of the
fragment. -/
theorem C160_energy (hk : k.twopi = 2 * π) (hmn : 0 < k.mn)
    (hl : ∀ (i : Nat) (h : i < l.length), k.mass z (a - i) = .ok l[i].1 ∧ l[i].1 ≠ 0 ∧ 0 ≤ l[i].2) {j : Nat} (hj : j < l.length) :
    mean (boostNeutrons k z a p (l.map (·.2))) (fun x => (x.1[j]?.map fun e => e.energy).getD 0) =
      l[j].2 + k.mn / 2 * (squareLeft k.mn (l.take j) (lenSq p) / l[j].1 ^ 2) := by
  obtain ⟨W, V, -, h2, h3⟩ := chain_run hk hmn p l a 1 0 (fun _ => 0) hl
  have e := h2 j hj (lenSq p)
  rw [one_pow, one_mul, Finset.range_zero, Finset.sum_empty, add_zero, ← form_square] at e
  have g : l[j].2 + k.mn / 2 * (squareLeft k.mn (l.take j) (lenSq p) / l[j].1 ^ 2) =
      k.mn / 2 * (squareLeft k.mn (l.take j) (lenSq p) / l[j].1 ^ 2 + 2 * l[j].2 / k.mn) := by
    have := hmn.ne'
    rw [mul_add, show k.mn / 2 * (2 * l[j].2 / k.mn) = l[j].2 by field_simp]
    ring
  rw [g, ← e, ← integral_const_mul]
  refine mean_run (local_neutrons k z _ a p) (n := 2 * l.length) fun ω hω => ?_
  obtain ⟨es, h, hes⟩ := h3 ω hω []
  rw [form_start, List.append_nil, show shift (2 * 0) ω = ω by funext j; simp [shift]] at h
  obtain ⟨e, e1, e2, e3⟩ := hes j hj
  refine ⟨_, h, ?_⟩
  simp only [e1, Option.map_some, Option.getD_some, e3, e2]

/-- Two neutrons of energy 1/2 from a nucleus of mass 80 with momentum 40: on average 39 are left; the second
neutron has on average slightly more energy than one of a fragment without recoil (5/8), in units in which the mass of the neutron is one. -/
example : mean (boostNeutrons roundWorld 30 80 ![0, 0, 40] [1 / 2, 1 / 2]) (fun x => x.2 2) = 39 ∧
    mean (boostNeutrons roundWorld 30 80 ![0, 0, 40] [1 / 2, 1 / 2]) (fun x => (x.1[1]?.map fun e => e.energy).getD 0) =
      1 / 2 + 1 / 2 * ((79 ^ 2 / 4 + 1) / 79 ^ 2) := by
  have hmn : roundWorld.mn = 1 := by simp [Const.mn, roundWorld]
  have hl : ∀ (i : Nat) (h : i < [((80 : ℝ), (1 / 2 : ℝ)), (79, 1 / 2)].length), roundWorld.mass 30 (80 - i) = .ok [((80 : ℝ), (1 / 2 : ℝ)), (79, 1 / 2)][i].1 ∧
      [((80 : ℝ), (1 / 2 : ℝ)), (79, 1 / 2)][i].1 ≠ 0 ∧ 0 ≤ [((80 : ℝ), (1 / 2 : ℝ)), (79, 1 / 2)][i].2 := by
    intro i h
    match i with
    | 0 => norm_num [Const.mass, roundWorld]
    | 1 => norm_num [Const.mass, roundWorld]
  have h0 : 0 < roundWorld.mn := by rw [hmn]; exact one_pos
  constructor
  · refine (C160_momentum (p := ![0, 0, 40]) rfl h0 hl 2).trans ?_
    rw [hmn]
    simp [shareLeft]
    norm_num
  · refine (C160_energy (p := ![0, 0, 40]) rfl h0 hl (j := 1) (by simp)).trans ?_
    rw [hmn]
    simp [squareLeft, lenSq]
    norm_num

end CGMF.Props

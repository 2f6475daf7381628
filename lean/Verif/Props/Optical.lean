import Verif.Proofs.OpticalW
import Mathlib.Data.Rat.Floor
import Mathlib.Analysis.SpecialFunctions.Trigonometric.Bounds
import Mathlib.Analysis.SpecialFunctions.Exp

/-!
# Optical model: C71 to C76
-/

set_option linter.unusedSectionVars false

namespace CGMF.Props

open CGMF.Opt CGMF.OptSpec

variable {K : Type} [Field K] [LinearOrder K] [IsStrictOrderedRing K]

namespace OptDemo

/-- A five-fermi toy potential on a mesh of ten points, with absorption `W`. -/
def pot (W : ℚ) : Pot ℚ :=
  ⟨(List.range 10).map fun i : Nat => ((i : ℚ) * (1 / 2)) ^ 2, (List.range 10).map fun _ : Nat => ⟨1, W⟩,
    (List.range 10).map fun _ : Nat => ⟨1 / 10, 0⟩⟩

/-- Spin one half, seven mesh points, wave number 2/3 and matching radius 3/2. -/
def su (W : ℚ) : Setup ℚ := ⟨6, 1 / 2, 4 / 9, 3 / 2, 1, 1 / 2, -1 / 10 ^ 10, fun l => (1 / 2) ^ (l + 1), pot W⟩

/-- Outer wave functions for `cos ρ = 3/5`, `sin ρ = 4/5` taken at `ρ = 1`. -/
def outer : Res (Ext ℚ) := externalNeutral 1 (1 / 10 ^ 10) (1 / 10 ^ 36) (1 / 10 ^ 6) (3 / 5) (4 / 5) 0

/-- Does a run return a value with this property? -/
def okWith {α : Type} (x : Res α) (p : α → Bool) : Bool :=
  match x with
  | .ok a => p a
  | _ => false

end OptDemo

open OptDemo

/-! ## C71: transmission coefficients -/

/-- **C71.** Every transmission coefficient `omCalc` stores is a probability: between 0 and 1. -/
theorem C71_probability (su : Setup K) (e : Ext K) (cut energy : K) (o : OmOut K)
    (h : omCalc su e cut energy = .ok (some o)) :
    ∀ t ∈ o.tran, 0 ≤ t.1 ∧ t.1 ≤ 1 ∧ 0 ≤ t.2 ∧ t.2 ≤ 1 := by
  unfold omCalc at h
  split at h
  · cases h
  · obtain ⟨r, hr, h⟩ := Res.bind_eq_ok.mp h
    cases h
    intro t ht
    obtain ⟨k, hk⟩ := List.mem_iff_getElem?.mp ht
    obtain ⟨_, h2, _⟩ := partialWaves_ok su e cut _ 0 0 [] rfl rfl (by intro k x hx; simp at hx) r hr
    obtain ⟨h3, h4⟩ := h2 k t hk
    exact ⟨(tranOf_range h3).1, (tranOf_range h3).2, (tranOf_range h4).1, (tranOf_range h4).2⟩

example : okWith outer (fun e => okWith (omCalc (su (1 / 5)) e (1 / 10 ^ 6) 1) fun o =>
    match o with
    | some o => decide (0 < (o.tran.getD 1 (0, 0)).1 ∧ (o.tran.getD 1 (0, 0)).1 < 1 ∧ o.tran.length = 6)
    | none => false) = true := by decide +kernel

/-- **C71.** The value: with outer wave functions of unit Wronskian the coefficient is the matching formula
`4 P (-Im D) / |D - (S + i P)|²`, cut off at zero, where `D` is the matching radius times the logarithmic
derivative of the inner wave function, `P` the penetrability and `S` the shift. -/
theorem C71_value (su : Setup K) (e : Ext K) (l j : Nat) (t g f dg df : K) (ho : Outer e l g f dg df)
    (hw : df * g - dg * f = 1) (hj : |(l : K) - su.spin| ≤ (l : K) + su.spin - (j : K))
    (h : tranOf su e l j = .ok t) :
    ∃ (w : List (Cx K)) (ψ dψ D : Cx K),
      internal su.n su.width su.wavesq (l : K) su.spin ((l : K) + su.spin - (j : K)) (su.amp l) su.eps su.pot = .ok w ∧
      AtMatch su.n su.width w ψ dψ ∧ 0 < normSq ψ ∧
      mul ψ D = ⟨su.radMatch * dψ.re, su.radMatch * dψ.im⟩ ∧
      0 < (D.re - shift su.rhoMatch g f dg df) ^ 2 + (D.im - penetrability su.rhoMatch g f) ^ 2 ∧
      t = max 0 (4 * penetrability su.rhoMatch g f * (-D.im) /
        ((D.re - shift su.rhoMatch g f dg df) ^ 2 + (D.im - penetrability su.rhoMatch g f) ^ 2)) := by
  obtain ⟨a, b, h1, h2, h3, h4, h5⟩ := matching_unit (rho := su.rhoMatch) ho.G ho.F ho.dG ho.dF hw
  unfold tranOf at h
  rw [h1] at h
  simp only [Res.bind_ok] at h
  rw [if_neg (not_lt.mpr hj)] at h
  obtain ⟨w, hi, h⟩ := Res.bind_eq_ok.mp h
  obtain ⟨s, hs, h⟩ := Res.bind_eq_ok.mp h
  cases h
  obtain ⟨win, dwin, q, g1, g2, g3, g4, g5⟩ := one_sub_smatrix hs h5
  rw [h3, h4] at g4 g5
  refine ⟨w, win, dwin, ⟨q.re * su.radMatch, q.im * su.radMatch⟩, hi, g1, ?_, ?_, g4, ?_⟩
  · have := sq_add_pos g2
    unfold normSq
    nlinarith
  · rw [← g3]
    unfold mul
    simp only [Cx.mk.injEq]
    constructor <;> ring
  · rw [clampT_eq, g5]
    unfold penetrability shift
    congr 1
    ring

example : okWith outer (fun e => okWith (tranOf (su (1 / 5)) e 1 1) fun t => decide (0 < t ∧ t < 1)) = true := by
  decide +kernel

/-- **C71.** The S matrix element is the amplitude of the outgoing wave: the inner wave function joins
`I - S O` smoothly, `r ψ' (I - S O) = ψ ρ (I' - S O')` with `O = G + i F` and `I = G - i F`. -/
theorem C71_matching (e : Ext K) (rho rm mesh : K) (m l : Nat) (g f dg df : K) (ho : Outer e l g f dg df)
    (ab : Cx K × Cx K) (w : List (Cx K)) (s : Cx K) (hm : matching e rho l = .ok ab)
    (hs : smatrix (m : Int) mesh rm ab.1 ab.2 w = .ok s) :
    ∃ ψ dψ : Cx K, AtMatch m mesh w ψ dψ ∧ ¬ (ψ.re = 0 ∧ ψ.im = 0) ∧
      mul ⟨rm * dψ.re, rm * dψ.im⟩ ⟨g - (mul s ⟨g, f⟩).re, -f - (mul s ⟨g, f⟩).im⟩ =
      mul ψ ⟨rho * (dg - (mul s ⟨dg, df⟩).re), rho * (-df - (mul s ⟨dg, df⟩).im)⟩ := by
  unfold matching at hm
  obtain ⟨g', h1, hm⟩ := Res.bind_eq_ok.mp hm
  obtain ⟨f', h2, hm⟩ := Res.bind_eq_ok.mp hm
  obtain ⟨dg', h3, hm⟩ := Res.bind_eq_ok.mp hm
  obtain ⟨df', h4, hm⟩ := Res.bind_eq_ok.mp hm
  obtain ⟨a, ha, hm⟩ := Res.bind_eq_ok.mp hm
  obtain ⟨b, hb, hm⟩ := Res.bind_eq_ok.mp hm
  cases hm
  have r : ∀ {xs : List K} {x y : K}, readAt xs (l : Int) = .ok x → xs[l]? = some y → x = y := by
    intro xs x y hx hy
    rw [readAt_ok_iff] at hx
    have := hx.2
    rw [Int.toNat_natCast, hy] at this
    exact (Option.some.inj this).symm
  obtain rfl := r h1 ho.G
  obtain rfl := r h2 ho.F
  obtain rfl := r h3 ho.dG
  obtain rfl := r h4 ho.dF
  obtain ⟨ψ, dψ, q, u, k1, k2, k3, rfl⟩ := smatrix_ok hs
  obtain ⟨k4, k5⟩ := rational_ok.mp k2
  obtain ⟨-, k6⟩ := rational_ok.mp k3
  obtain ⟨-, k7⟩ := rational_ok.mp ha
  obtain ⟨-, k8⟩ := rational_ok.mp hb
  refine ⟨ψ, dψ, k1, k4, ?_⟩
  unfold mul at k5 k6 k7 k8 ⊢
  simp only [Cx.mk.injEq] at k6 k7 k8 ⊢
  have k5r : dψ.re = ψ.re * q.re - ψ.im * q.im := (Cx.mk.inj k5).1.symm
  have k5i : dψ.im = ψ.re * q.im + ψ.im * q.re := (Cx.mk.inj k5).2.symm
  obtain ⟨k6r, k6i⟩ := k6
  obtain ⟨k7r, k7i⟩ := k7
  obtain ⟨k8r, k8i⟩ := k8
  rw [k5r, k5i, ← k7r, ← k7i]
  constructor
  · linear_combination (-(ψ.re * g' + ψ.im * f')) * k6r + (ψ.im * g' - ψ.re * f') * k6i
      - ((ψ.re * u.re - ψ.im * u.im) * (q.re * rm - a.re * rho) - (ψ.re * u.im + ψ.im * u.re) * (q.im * rm - a.im * rho)) * k8r
      + ((ψ.re * u.re - ψ.im * u.im) * (q.im * rm - a.im * rho) + (ψ.re * u.im + ψ.im * u.re) * (q.re * rm - a.re * rho)) * k8i
  · linear_combination (-(ψ.re * g' + ψ.im * f')) * k6i - (ψ.im * g' - ψ.re * f') * k6r
      - ((ψ.re * u.re - ψ.im * u.im) * (q.re * rm - a.re * rho) - (ψ.re * u.im + ψ.im * u.re) * (q.im * rm - a.im * rho)) * k8i
      - ((ψ.re * u.re - ψ.im * u.im) * (q.im * rm - a.im * rho) + (ψ.re * u.im + ψ.im * u.re) * (q.re * rm - a.re * rho)) * k8r

example : okWith outer (fun e => okWith (matching e (su (1 / 5) : Setup ℚ).rhoMatch 1) fun ab =>
    okWith (internal (su (1 / 5) : Setup ℚ).n (su (1 / 5)).width (su (1 / 5)).wavesq 1 (1 / 2) (3 / 2) ((su (1 / 5)).amp 1)
      (su (1 / 5)).eps (su (1 / 5)).pot) fun w =>
    okWith (smatrix ((su (1 / 5) : Setup ℚ).n : Int) (su (1 / 5)).width (su (1 / 5)).radMatch ab.1 ab.2 w) fun s =>
      decide (s.re ≠ 0 ∧ s.im ≠ 0)) = true := by decide +kernel

/-- **C71.** Transmission is positive exactly when the inner wave function carries flux inwards at the
matching radius. -/
theorem C71_inward (su : Setup K) (e : Ext K) (l j : Nat) (t g f dg df : K) (ho : Outer e l g f dg df)
    (hw : df * g - dg * f = 1) (hj : |(l : K) - su.spin| ≤ (l : K) + su.spin - (j : K))
    (hr : 0 < su.radMatch) (hρ : 0 < su.rhoMatch) (h : tranOf su e l j = .ok t) :
    ∃ (w : List (Cx K)) (ψ dψ : Cx K),
      internal su.n su.width su.wavesq (l : K) su.spin ((l : K) + su.spin - (j : K)) (su.amp l) su.eps su.pot = .ok w ∧
      AtMatch su.n su.width w ψ dψ ∧ (0 < t ↔ flux ψ dψ < 0) := by
  obtain ⟨w, ψ, dψ, D, h1, h2, h3, h4, h5, h6⟩ := C71_value su e l j t g f dg df ho hw hj h
  refine ⟨w, ψ, dψ, h1, h2, ?_⟩
  have hP : 0 < penetrability su.rhoMatch g f := by
    have hn : ¬ (g = 0 ∧ f = 0) := by rintro ⟨rfl, rfl⟩; simp at hw
    have := sq_add_pos hn
    unfold penetrability
    apply div_pos hρ
    nlinarith
  have hD : su.radMatch * flux ψ dψ = normSq ψ * D.im := by
    unfold mul at h4
    simp only [Cx.mk.injEq] at h4
    unfold flux normSq
    have e1 : su.radMatch * (ψ.re * dψ.im - ψ.im * dψ.re) =
        ψ.re * (su.radMatch * dψ.im) - ψ.im * (su.radMatch * dψ.re) := by ring
    rw [e1, ← h4.1, ← h4.2]
    ring
  have hs : flux ψ dψ < 0 ↔ D.im < 0 := by
    constructor
    · intro hf
      have : normSq ψ * D.im < 0 := by rw [← hD]; exact mul_neg_of_pos_of_neg hr hf
      by_contra hc
      have := mul_nonneg h3.le (not_lt.mp hc)
      linarith
    · intro hf
      have : su.radMatch * flux ψ dψ < 0 := by rw [hD]; exact mul_neg_of_pos_of_neg h3 hf
      by_contra hc
      have := mul_nonneg hr.le (not_lt.mp hc)
      linarith
  rw [h6, hs, lt_max_iff]
  constructor
  · rintro (hh | hh)
    · exact absurd hh (lt_irrefl _)
    · rw [lt_div_iff₀ h5, zero_mul] at hh
      by_contra hc
      have := mul_nonneg (mul_nonneg (by norm_num : (0 : K) ≤ 4) hP.le) (not_lt.mp hc)
      nlinarith
  · intro hh
    right
    apply div_pos _ h5
    apply mul_pos (by positivity)
    linarith

/-- **C71.** The result does not depend on how the integration is started: any other non-zero amplitude and
any other imaginary admixture give the same coefficient, in every case. -/
theorem C71_start (su : Setup K) (e : Ext K) (l j : Nat) (amp' : Nat → K) (eps' : K)
    (h1 : su.amp l ≠ 0) (h2 : amp' l ≠ 0) :
    tranOf { su with amp := amp', eps := eps' } e l j = tranOf su e l j :=
  tranOf_start su e l j amp' eps' h1 h2

example : okWith outer (fun e => decide (tranOf { su (1 / 5) with amp := fun _ => 7, eps := 3 } e 1 0 =
    tranOf (su (1 / 5)) e 1 0)) = true := by decide +kernel

/-! ## C72: flux inside the potential -/

/-- `Q` of the proofs and `radialQ` of the statement agree wherever they matter. -/
theorem aux_Q {h k2 l s j : K} {V W U X : Nat → K} (i : Nat) (a : Cx K) (h0 : i = 0 → a = ⟨0, 0⟩) :
    mul (den (h * h / 12) (Q h k2 l s j V W U X i)) a = aux h (radialQ h k2 l s j V W U X i) a := by
  by_cases hi : i = 0
  · rw [h0 hi]
    unfold aux mul
    simp
  · unfold Q
    rw [if_neg hi]
    unfold aux den
    rw [pow_two]

/-- **C72.** Flux balance on the mesh: from one mesh point to the next the flux of the wave function
(Numerov's auxiliary function) changes by exactly the absorption there, `-h² (W + s.o. X) |ψ|²`. -/
theorem C72_flux_balance (pot : Pot K) (N n : Nat) (h k2 l s j amp eps : K) (V W U X : Nat → K)
    (hp : OnMesh pot N h V W U X) (hh : h ≠ 0) (hn : 1 ≤ n) (w : List (Cx K))
    (hw : internal n h k2 l s j amp eps pot = .ok w) (i : Nat) (a b c : Cx K)
    (ha : w[i]? = some a) (hb : w[i + 1]? = some b) (hc : w[i + 2]? = some c) :
    flux (aux h (radialQ h k2 l s j V W U X (i + 1)) b) (aux h (radialQ h k2 l s j V W U X (i + 2)) c) =
      flux (aux h (radialQ h k2 l s j V W U X i) a) (aux h (radialQ h k2 l s j V W U X (i + 1)) b) -
        h ^ 2 * (W (i + 1) + soFactor l s j * X (i + 1)) * normSq b := by
  obtain ⟨_, h0, _, ht⟩ := internal_ok hp hh hn hw
  have hr := (ht i a b c ha hb hc).2
  have hs := flux_step hr
  rw [aux_Q (i + 1) b (by intro hi; omega), aux_Q (i + 2) c (by intro hi; omega),
    aux_Q i a (by intro hi; subst hi; rw [h0] at ha; cases ha; rfl)] at hs
  rw [hs]
  have hq : (Q h k2 l s j V W U X (i + 1)).im = -(W (i + 1)) - soFactor l s j * X (i + 1) := by
    unfold Q; rw [if_neg (by omega)]; rfl
  rw [hq]
  ring

/-- **C72.** With an absorptive potential (`W + s.o. X ≥ 0` on the mesh) the flux never points outwards:
the potential cannot create particles. -/
theorem C72_no_source (pot : Pot K) (N n : Nat) (h k2 l s j amp eps : K) (V W U X : Nat → K)
    (hp : OnMesh pot N h V W U X) (hh : h ≠ 0) (hn : 1 ≤ n) (w : List (Cx K))
    (hW : ∀ i, 1 ≤ i → 0 ≤ W i + soFactor l s j * X i)
    (hw : internal n h k2 l s j amp eps pot = .ok w) (i : Nat) (a b : Cx K)
    (ha : w[i]? = some a) (hb : w[i + 1]? = some b) :
    flux (aux h (radialQ h k2 l s j V W U X i) a) (aux h (radialQ h k2 l s j V W U X (i + 1)) b) ≤ 0 := by
  obtain ⟨_, h0, _, ht⟩ := internal_ok hp hh hn hw
  have hq : ∀ i, 1 ≤ i → (Q h k2 l s j V W U X i).im ≤ 0 := by
    intro i hi
    have := hW i hi
    unfold Q
    rw [if_neg (by omega)]
    simp only [radialQ]
    linarith
  have := flux_all ht (by have := mul_self_nonneg h; positivity) hq h0 i a b ha hb
  rwa [aux_Q i a (by intro hi; subst hi; rw [h0] at ha; cases ha; rfl),
    aux_Q (i + 1) b (by intro hi; omega)] at this

/-- **C72.** The integration completes whenever the mesh lies inside the tables and no factor
`1 - h² q/12` vanishes; the table then has one entry per mesh point and starts with 0 and the given value. -/
theorem C72_complete (pot : Pot K) (N n : Nat) (h k2 l s j amp eps : K) (V W U X : Nat → K)
    (hp : OnMesh pot N h V W U X) (hh : h ≠ 0) (hn : 1 ≤ n) (hN : n < N)
    (hd : ∀ i, 2 ≤ i → i ≤ n → (1 - h ^ 2 / 12 * (radialQ h k2 l s j V W U X i).re ≠ 0 ∨
      h ^ 2 / 12 * (radialQ h k2 l s j V W U X i).im ≠ 0)) :
    ∃ w, internal n h k2 l s j amp eps pot = .ok w ∧ w.length = n + 1 ∧ w[0]? = some ⟨0, 0⟩ ∧
      w[1]? = some ⟨amp, amp * eps⟩ := by
  have hq := qAt_mesh hp hh k2 l s j
  have h1 := hq 1 (le_refl _)
  rw [Nat.cast_one, if_pos (by omega)] at h1
  have := fgLoop_total (d2 := h * h / 12) hq (n - 1) 0 ⟨0, 0⟩ ⟨amp, amp * eps⟩ [⟨0, 0⟩, ⟨amp, amp * eps⟩] (by omega) (by
    intro k hk1 hk2
    have := hd k (by omega) (by omega)
    unfold Q
    rw [if_neg (by omega), ← pow_two, neg_eq_zero]
    tauto)
  obtain ⟨w, hw⟩ := this
  have hi : internal n h k2 l s j amp eps pot = .ok w := by
    unfold internal
    simp only
    rw [h1]
    exact hw
  obtain ⟨g1, g2, g3, _⟩ := internal_ok hp hh hn hi
  exact ⟨w, hi, g1, g2, g3⟩

/-- **C72.** A real potential transmits nothing: without absorption every coefficient is exactly 0, so all
loss in the S matrix comes from the imaginary potential. -/
theorem C72_real_potential (su : Setup K) (N : Nat) (V U : Nat → K)
    (hp : OnMesh su.pot N su.width V (fun _ => 0) U (fun _ => 0)) (hn : 1 ≤ su.n)
    (e : Ext K) (l j : Nat) (t g f dg df : K) (ho : Outer e l g f dg df) (hw : df * g - dg * f = 1)
    (h : tranOf su e l j = .ok t) : t = 0 := by
  by_cases hj : |(l : K) - su.spin| ≤ (l : K) + su.spin - (j : K)
  · obtain ⟨w, ψ, dψ, D, h1, h2, h3, h4, h5, h6⟩ := C71_value su e l j t g f dg df ho hw hj h
    obtain ⟨_, i0, i1, it⟩ := internal_ok hp h2.meshNe hn h1
    have hq : ∀ i, (Q su.width su.wavesq (l : K) su.spin ((l : K) + su.spin - (j : K)) V (fun _ => 0) U
        (fun _ => 0) i).im = 0 := by
      intro i
      unfold Q
      split
      · rfl
      · simp [radialQ]
    have ph := phase_all (eps := su.eps) it hq i0 i1 (by simp only; ring)
    have hψ := ph _ _ h2.val
    obtain ⟨a, b, c, e', f', g', j1, j2, j3, j4, j5, j6, j7⟩ := h2.der
    have hdψ : dψ.im = su.eps * dψ.re := by
      rw [j7]
      simp only
      rw [ph _ _ j1, ph _ _ j2, ph _ _ j3, ph _ _ j4, ph _ _ j5, ph _ _ j6]
      unfold sevenPoint
      ring
    have hD : D.im = 0 := by
      unfold mul at h4
      simp only [Cx.mk.injEq] at h4
      obtain ⟨k1, k2⟩ := h4
      rw [hψ] at k1 k2
      rw [hdψ] at k2
      have hx : ψ.re ≠ 0 := by
        intro hx
        unfold normSq at h3
        rw [hψ, hx] at h3
        simp at h3
      have he : (1 : K) + su.eps * su.eps ≠ 0 := by
        have := mul_self_nonneg su.eps
        linarith
      have : ψ.re * ((1 + su.eps * su.eps) * D.im) = 0 := by
        have : ψ.re * D.im + su.eps * ψ.re * D.re = su.eps * (ψ.re * D.re - su.eps * ψ.re * D.im) := by
          rw [k1, k2]; ring
        linarith
      rcases mul_eq_zero.mp this with hz | hz
      · exact absurd hz hx
      · rcases mul_eq_zero.mp hz with hz | hz
        · exact absurd hz he
        · exact hz
    rw [h6, hD]
    simp
  · unfold tranOf at h
    obtain ⟨a, b, h1, _⟩ := matching_unit (rho := su.rhoMatch) ho.G ho.F ho.dG ho.dF hw
    rw [h1] at h
    simp only [Res.bind_ok] at h
    rw [if_pos (not_le.mp hj)] at h
    cases h
    rfl

theorem OptDemo.pot_onMesh (W : ℚ) :
    OnMesh (pot W) 10 (1 / 2) (fun _ => 1) (fun _ => W) (fun _ => 1 / 10) (fun _ => 0) :=
  ⟨rfl, rfl, rfl⟩

example : okWith (internal 6 (1 / 2) (4 / 9) 1 (1 / 2) (1 / 2) (1 / 4) (-1 / 10 ^ 10) (pot (1 / 5)))
    (fun w => decide (w.length = 7 ∧ flux (w.getD 4 ⟨0, 0⟩) (w.getD 5 ⟨0, 0⟩) < 0)) = true := by decide +kernel

example : okWith outer (fun e => decide (tranOf (su 0) e 1 1 = .ok 0)) = true := by decide +kernel

/-! ## C73: outer wave functions -/

/-- **C73.** Whatever the outer routine returns has unit Wronskian at every order it reports, satisfies the
recurrences in both columns, starts from the given values, and stays within the arrays. -/
theorem C73_wronskian (rt : Nat → K) (eta rho crit start tol a g0 g1 : K) (lmin : Nat)
    (hrt : ∀ j, 1 ≤ j → rt j ≠ 0) (hs : start ≠ 0) (ht : 0 ≤ tol) (e : Ext K)
    (h : external rt eta rho crit start tol a g0 g1 lmin = .ok e) :
    1 ≤ e.lmax ∧ e.lmax ≤ 48 ∧ e.G.length ≤ 50 ∧ e.F.length ≤ 50 ∧ e.G[0]? = some g0 ∧ e.G[1]? = some g1 ∧
    (∀ l, l ≤ e.lmax → ∃ g f dg df, Outer e l g f dg df ∧ df * g - dg * f = 1) ∧
    ∀ l, 1 ≤ l → l ≤ e.lmax → ∀ col ∈ [e.G, e.F], ∃ x y z, col[l - 1]? = some x ∧ col[l]? = some y ∧
      col[l + 1]? = some z ∧
      (l : K) * rt (l + 1) * z + ((l : K) + 1) * rt l * x =
        (2 * (l : K) + 1) * (eta + (l : K) * ((l : K) + 1) / rho) * y := by
  by_cases hr : rho = 0
  · unfold external at h
    rw [if_pos hr] at h
    cases h
  obtain ⟨lmax, len, h1, h2, h3, h4, f, hf, h5⟩ := external_spec (eta := eta) (crit := crit) (a := a) (g0 := g0)
    (g1 := g1) (lmin := lmin) hrt hs ht hr
  rw [h5] at h
  by_cases hz : gseq rt eta rho g0 g1 (lmax + 11) = 0
  · rw [if_pos hz] at h; cases h
  · rw [if_neg hz] at h
    have hk : rt 1 * cas f (gseq rt eta rho g0 g1) 0 ≠ 0 := fun hh => hz ((cas_top hf hrt hs).mp hh)
    cases h
    refine ⟨h1, h2, by simp [passOut]; omega, by simp [passOut]; omega, ?_, ?_, ?_, ?_⟩
    · exact getElem_range_map _ (by omega)
    · exact getElem_range_map _ (by omega)
    · intro l hl
      have hl : l ≤ lmax := hl
      obtain ⟨k1, k2, k3, k4⟩ := passOut_get rt eta rho lmax len f (gseq rt eta rho g0 g1)
        (1 / (rt 1 * cas f (gseq rt eta rho g0 g1) 0)) h3 l hl
      exact ⟨_, _, _, _, ⟨k1, k2, k3, k4⟩, passOut_wronsk hf hrt hk l (by omega)⟩
    · intro l hl1 hl2 col hcol
      have hl2 : l ≤ lmax := hl2
      obtain ⟨m, rfl⟩ : ∃ m, l = m + 1 := ⟨l - 1, by omega⟩
      simp only [List.mem_cons, List.not_mem_nil, or_false] at hcol
      rcases hcol with rfl | rfl
      · refine ⟨_, _, _, getElem_range_map _ (by omega), getElem_range_map _ (by omega),
          getElem_range_map _ (by omega), ?_⟩
        have := gseq_rel (eta := eta) (rho := rho) (g0 := g0) (g1 := g1) hrt m
        simp only [Nat.add_sub_cancel]
        push_cast at this ⊢
        rw [show m + 1 + 1 = m + 2 from rfl, this]
        ring
      · refine ⟨_, _, _, getElem_range_map _ (by omega), getElem_range_map _ (by omega),
          getElem_range_map _ (by omega), ?_⟩
        have := down_rel hf hrt m (by omega)
        simp only [Nat.add_sub_cancel]
        generalize 1 / (rt 1 * cas f (gseq rt eta rho g0 g1) 0) = κ
        push_cast at this ⊢
        rw [show m + 1 + 1 = m + 2 from rfl]
        calc ((m : K) + 1) * rt (m + 2) * (f (m + 2) * κ) + ((m : K) + 1 + 1) * rt (m + 1) * (f m * κ)
            = (((m : K) + 1) * rt (m + 2) * f (m + 2) + ((m : K) + 2) * rt (m + 1) * f m) * κ := by ring
          _ = _ := by rw [this]; ring

/-- **C73.** The search for a good starting order never gives up: the process exit "angular momentum too
large" is unreachable, because the first pass already has Wronskian 1. -/
theorem C73_no_exit (rt : Nat → K) (eta rho crit start tol a g0 g1 : K) (lmin : Nat)
    (hrt : ∀ j, 1 ≤ j → rt j ≠ 0) (hs : start ≠ 0) (ht : 0 ≤ tol) :
    external rt eta rho crit start tol a g0 g1 lmin ≠ .exit := by
  by_cases hr : rho = 0
  · unfold external
    rw [if_pos hr]
    intro h; cases h
  obtain ⟨lmax, len, _, _, _, _, f, _, h5⟩ := external_spec (eta := eta) (crit := crit) (a := a) (g0 := g0)
    (g1 := g1) (lmin := lmin) hrt hs ht hr
  rw [h5]
  split <;> (intro h; cases h)

/-- **C73.** A neutral particle: the routine returns whenever the irregular solution has begun to grow by
order twelve and beyond the turning point. -/
theorem C73_returns (rho crit start tol c s : K) (lmin L : Nat) (hr : 0 < rho) (hs : start ≠ 0) (ht : 0 ≤ tol)
    (g : Nat → K) (hg0 : g 0 = c) (hg1 : g 1 = c / rho + s)
    (hg : ∀ l, 1 ≤ l → g (l + 1) = (2 * (l : K) + 1) / rho * g l - g (l - 1))
    (hL : L ≤ 11) (hLr : rho ≤ (L : K) + 3 / 2) (h1 : |g L| ≤ |g (L + 1)|) (h2 : g (L + 1) ≠ 0) :
    ∃ e, externalNeutral rho crit start tol c s lmin = .ok e := by
  have hrt : ∀ j, 1 ≤ j → ((fun j : Nat => (j : K)) j) ≠ 0 := by
    intro j hj
    simp only [ne_eq, Nat.cast_eq_zero]
    omega
  have hgs : ∀ n, gseq (fun j : Nat => (j : K)) 0 rho c (c / rho + s) n = g n := by
    intro n
    induction n using Nat.strong_induction_on with
    | _ n ih =>
      match n, ih with
      | 0, _ => exact hg0.symm
      | 1, _ => exact hg1.symm
      | m + 2, ih =>
        rw [show gseq (fun j : Nat => (j : K)) 0 rho c (c / rho + s) (m + 2) =
          gFun (fun j : Nat => (j : K)) 0 rho (m + 1) (gseq (fun j : Nat => (j : K)) 0 rho c (c / rho + s) m)
          (gseq (fun j : Nat => (j : K)) 0 rho c (c / rho + s) (m + 1)) from rfl,
          ih m (by omega), ih (m + 1) (by omega), show m + 2 = m + 1 + 1 from rfl, hg (m + 1) (by omega)]
        unfold gFun
        have a1 : ((m + 1 : Nat) : K) ≠ 0 := by exact_mod_cast Nat.succ_ne_zero m
        have a2 : ((m + 1 + 1 : Nat) : K) ≠ 0 := by exact_mod_cast Nat.succ_ne_zero (m + 1)
        simp only [Nat.add_sub_cancel]
        push_cast at a1 a2 ⊢
        field_simp
        ring
  unfold externalNeutral
  obtain ⟨lmax, len, k1, _, _, _, f, _, k5⟩ := external_spec (eta := 0) (crit := crit) (a := 1) (g0 := c)
    (g1 := c / rho + s) (lmin := lmin) hrt hs ht hr.ne'
  rw [k5]
  have := (gseq_grows hr hLr (by rw [hgs, hgs]; exact h1) (by rw [hgs]; exact h2) (lmax + 10) (by omega)).2
  rw [if_neg this]
  exact ⟨_, rfl⟩

/-- **C73.** At low energy, with the code's own `cos` and `sin`, the routine always returns. -/
theorem C73_low_energy (rho crit start tol : ℝ) (lmin : Nat) (h0 : 0 < rho) (h1 : rho ≤ 1) (hs : start ≠ 0)
    (ht : 0 ≤ tol) : ∃ e, externalNeutral rho crit start tol (Real.cos rho) (Real.sin rho) lmin = .ok e := by
  have hc : 0 < Real.cos rho := Real.cos_pos_of_le_one (by rw [abs_of_pos h0]; exact h1)
  have hsn : 0 ≤ Real.sin rho := (Real.sin_pos_of_pos_of_le_one h0 h1).le
  have hge : Real.cos rho ≤ Real.cos rho / rho + Real.sin rho := by
    have : Real.cos rho ≤ Real.cos rho / rho := by
      rw [le_div_iff₀ h0]
      nlinarith
    linarith
  have hrt : ∀ j, 1 ≤ j → ((fun j : Nat => (j : ℝ)) j) ≠ 0 := by
    intro j hj
    simp only [ne_eq, Nat.cast_eq_zero]
    omega
  unfold externalNeutral
  obtain ⟨lmax, len, k1, _, _, _, f, _, k5⟩ := external_spec (eta := 0) (crit := crit) (a := 1)
    (g0 := Real.cos rho) (g1 := Real.cos rho / rho + Real.sin rho) (lmin := lmin) hrt hs ht h0.ne'
  rw [k5]
  have := (gseq_grows (g0 := Real.cos rho) (g1 := Real.cos rho / rho + Real.sin rho) h0 (L := 0)
    (by push_cast; linarith) (by
      change |Real.cos rho| ≤ |Real.cos rho / rho + Real.sin rho|
      rw [abs_of_pos hc, abs_of_pos (by linarith)]
      exact hge) (by
      change Real.cos rho / rho + Real.sin rho ≠ 0
      linarith) (lmax + 10) (by omega)).2
  rw [if_neg this]
  exact ⟨_, rfl⟩

theorem gLoop_stop (rt : Nat → K) (eta rho crit a g0 g1 : K) (lmin : Nat) :
    ∀ (n l : Nat), ∀ r acc, gLoop rt eta rho crit a lmin n (l + 1) (gseq rt eta rho g0 g1 l)
        (gseq rt eta rho g0 g1 (l + 1)) acc = r →
      (r.1 < l + 1 + n → lmin ≤ r.1 ∧ gseq rt eta rho g0 g1 (r.1 + 1) ≠ 0 ∧
        a / (gseq rt eta rho g0 g1 (r.1 + 1) * gseq rt eta rho g0 g1 (r.1 + 1)) < crit) ∧
      ∀ k, l + 1 ≤ k → lmin ≤ k → k < r.1 → gseq rt eta rho g0 g1 (k + 1) ≠ 0 →
        crit ≤ a / (gseq rt eta rho g0 g1 (k + 1) * gseq rt eta rho g0 g1 (k + 1)) := by
  intro n
  induction n with
  | zero =>
      intro l r acc hr
      subst hr
      simp only [gLoop]
      exact ⟨by intro h; omega, by intro k h1 _ h2; omega⟩
  | succ n ih =>
      intro l r acc hr
      unfold gLoop at hr
      have h3 : gFun rt eta rho (l + 1) (gseq rt eta rho g0 g1 l) (gseq rt eta rho g0 g1 (l + 1)) =
          gseq rt eta rho g0 g1 (l + 2) := rfl
      simp only [h3] at hr
      split at hr
      · rename_i hc
        subst hr
        exact ⟨fun _ => ⟨hc.2.2, hc.1, hc.2.1⟩, by intro k h1 _ h2; simp only at h2; omega⟩
      · rename_i hc
        obtain ⟨i1, i2⟩ := ih (l + 1) r _ hr
        refine ⟨fun h => i1 (by omega), ?_⟩
        intro k h1 h2 h4 h5
        rcases Nat.eq_or_lt_of_le h1 with rfl | h1
        · by_contra hlt
          exact hc ⟨h5, not_le.mp hlt, h2⟩
        · exact i2 k (by omega) h2 h4 h5

/-- **C73.** The reported order is the first one, not below the order asked for, beyond which the irregular function exceeds the
criterion; only the size of the arrays ends the search earlier. -/
theorem C73_order (rt : Nat → K) (eta rho crit start tol a g0 g1 : K) (lmin : Nat)
    (hrt : ∀ j, 1 ≤ j → rt j ≠ 0) (hs : start ≠ 0) (ht : 0 ≤ tol) (e : Ext K)
    (h : external rt eta rho crit start tol a g0 g1 lmin = .ok e) :
    (e.lmax < 48 → lmin ≤ e.lmax ∧ ∃ z, e.G[e.lmax + 1]? = some z ∧ z ≠ 0 ∧ a / (z * z) < crit) ∧
    ∀ (l : Nat) (z : K), 1 ≤ l → lmin ≤ l → l < e.lmax → e.G[l + 1]? = some z → z ≠ 0 → crit ≤ a / (z * z) := by
  by_cases hr : rho = 0
  · unfold external at h
    rw [if_pos hr] at h
    cases h
  obtain ⟨lmax, len, h1, h2, h3, h4, h5⟩ := gLoop_full rt eta rho crit a g0 g1 lmin
  obtain ⟨f, hf⟩ := exists_down rt eta rho start (lmax + 10)
  unfold external at h
  rw [if_neg hr] at h
  simp only at h5 h
  rw [h5.1, h5.2, search_spec hrt hs ht h3 h2 hf] at h
  obtain ⟨s1, s2⟩ := gLoop_stop rt eta rho crit a g0 g1 lmin 48 0 _ _ rfl
  have hm : maxL - 1 = 49 := rfl
  have hm2 : maxL - 2 = 48 := rfl
  have e5 := h5.1
  rw [hm, hm2] at e5
  change _ → _ at s1
  by_cases hz : gseq rt eta rho g0 g1 (lmax + 11) = 0
  · rw [if_pos hz] at h; cases h
  · rw [if_neg hz] at h
    cases h
    have hG : ∀ k, k < len → ((List.range len).map (gseq rt eta rho g0 g1))[k]? = some (gseq rt eta rho g0 g1 k) :=
      fun k hk => getElem_range_map _ hk
    have hlm : ∀ acc, acc = [g0, g1] → gLoop rt eta rho crit a lmin 48 (0 + 1) (gseq rt eta rho g0 g1 0)
        (gseq rt eta rho g0 g1 (0 + 1)) acc = gLoop rt eta rho crit a lmin 48 1 g0 g1 [g0, g1] := by
      intro acc ha; rw [ha]; rfl
    rw [hlm [g0, g1] rfl] at s1 s2
    simp only [passOut]
    constructor
    · intro hlt
      have hne : (gLoop rt eta rho crit a lmin 48 1 g0 g1 [g0, g1]).1 ≠ 49 := by
        intro h49; rw [if_pos h49, h49] at e5; omega
      rw [if_neg hne] at e5
      rw [e5] at s1
      obtain ⟨t1, t2, t3⟩ := s1 (by omega)
      exact ⟨t1, _, hG _ (by omega), t2, t3⟩
    · intro l z hl1 hl2 hl3 hl4 hl5
      rw [hG _ (by omega)] at hl4
      cases hl4
      refine s2 l (by omega) hl2 ?_ hl5
      split at e5 <;> omega

/-- With a smallest order of 20 the search goes on to 20; without one it ends at 6, where the criterion is met for the first
time. -/
example : okWith outer (fun e => decide (e.lmax = 6 ∧ 1 / (e.G.getD 7 0) ^ 2 < 1 / 10 ^ 10 ∧ 1 / 10 ^ 10 ≤ 1 / (e.G.getD 6 0) ^ 2)) = true ∧
    okWith (externalNeutral (1 : ℚ) (1 / 10 ^ 10) (1 / 10 ^ 36) (1 / 10 ^ 6) (3 / 5) (4 / 5) 20)
      (fun e => decide (e.lmax = 20)) = true := by decide +kernel

example : okWith outer (fun e => decide (e.lmax = 6 ∧ e.G.length = 8 ∧
    e.dF.getD 3 0 * e.G.getD 3 0 - e.dG.getD 3 0 * e.F.getD 3 0 = 1)) = true := by decide +kernel

/-! ## C74: the sum over partial waves -/

/-- **C74** (partial). What is stored as the reaction cross section is the sum `Σ (l+1) T₊ + l T₋` over the
computed waves; every entry is the coefficient of its own wave; no energy above zero gives no answer, none
below gives one; the reported order is the last computed wave (or 49, with all coefficients beyond the
table zero), and a sum cut short ends on a wave adding less than the given fraction.  The full property asks
for the cross section itself, `π/k²` times the sum. -/
theorem C74_reaction_partial (su : Setup K) (e : Ext K) (cut energy : K) (he : e.lmax ≤ 48) (r : Option (OmOut K))
    (h : omCalc su e cut energy = .ok r) :
    (r = none ↔ energy ≤ 0) ∧ ∀ o, r = some o →
      o.reaction = partialSum o.tran ∧
      (∀ (l : Nat) (x : K × K), o.tran[l]? = some x → tranOf su e l 0 = .ok x.1 ∧ tranOf su e l 1 = .ok x.2) ∧
      o.lmax ≤ 49 ∧ o.tran.length ≤ e.lmax + 1 ∧ (o.tran.length = o.lmax + 1 ∨ (o.lmax = 49 ∧ o.tran.length = 49)) ∧
      (o.tran.length ≤ e.lmax → ∃ tp tm c0 : K, o.tran[o.lmax]? = some (tp, tm) ∧ c0 ≠ 0 ∧
        o.reaction = c0 + (((o.lmax : K) + 1) * tp + (o.lmax : K) * tm) ∧
        (((o.lmax : K) + 1) * tp + (o.lmax : K) * tm) / c0 < cut) := by
  unfold omCalc at h
  by_cases hE : energy ≤ 0
  · rw [if_pos hE] at h
    cases h
    exact ⟨⟨fun _ => hE, fun _ => rfl⟩, by intro o ho; cases ho⟩
  · rw [if_neg hE] at h
    obtain ⟨p, hp, h⟩ := Res.bind_eq_ok.mp h
    cases h
    refine ⟨⟨(by intro hh; cases hh), fun hh => absurd hh hE⟩, ?_⟩
    intro o ho
    cases ho
    obtain ⟨g1, g2, g3⟩ := partialWaves_ok su e cut _ 0 0 [] rfl rfl (by intro k x hx; simp at hx) p hp
    have hm : maxL - 1 = 49 := rfl
    simp only
    rw [waveSum_eq] at g1
    refine ⟨g1, g2, ?_⟩
    rcases g3 with ⟨g3, g4⟩ | ⟨_, g4, g5, tp, tm, c0, g6, g7, g8, g9⟩
    · by_cases h49 : p.1 = maxL - 1
      · rw [if_pos h49]
        refine ⟨by omega, by omega, Or.inr ⟨by omega, by omega⟩, ?_⟩
        intro hl; omega
      · rw [if_neg h49, if_neg (by omega)]
        refine ⟨by omega, by omega, Or.inl (by omega), ?_⟩
        intro hl; omega
    · rw [if_neg (by omega)]
      have : (if p.1 < e.lmax then p.1 else e.lmax) = p.1 := by
        split <;> omega
      rw [this]
      refine ⟨by omega, by omega, Or.inl g5, ?_⟩
      intro _
      refine ⟨tp, tm, c0, g6, g7, ?_, ?_⟩
      · rw [g8]; ring
      · rw [g8]; exact g9

/-- **C74**, the disagreement: the factor `κ = NORM_FACT·π/k²` that would make the stored number a cross
section is not applied, so at any energy where `κ ≠ 1` and some wave is absorbed the stored value is
wrong. -/
theorem C74_not_cross_section (su : Setup K) (e : Ext K) (cut energy κ : K) (o : OmOut K) (he : e.lmax ≤ 48)
    (h : omCalc su e cut energy = .ok (some o)) (hκ : κ ≠ 1) (hn : partialSum o.tran ≠ 0) :
    o.reaction ≠ κ * partialSum o.tran := by
  have := ((C74_reaction_partial su e cut energy he (some o) h).2 o rfl).1
  rw [this]
  intro hh
  apply hκ
  have : (κ - 1) * partialSum o.tran = 0 := by linarith
  rcases mul_eq_zero.mp this with hz | hz
  · linarith
  · exact absurd hz hn

example : okWith outer (fun e => okWith (omCalc (su (1 / 5)) e (1 / 10 ^ 6) 1) fun o =>
    match o with
    | some o => decide (e.lmax ≤ 48 ∧ 0 < partialSum o.tran ∧ o.reaction = partialSum o.tran ∧ o.lmax = 5)
    | none => false) = true := by decide +kernel

example : okWith outer (fun e => decide (omCalc (su (1 / 5)) e (1 / 10 ^ 6) 0 = .ok none)) = true := by
  decide +kernel

/-! ## C75: matching mesh -/

/-- **C75** (partial). Whenever the mesh is built the matching radius lies beyond the requested one by at most
one spacing, the matching point is the centre of the seven-point stencil, and the table holds the potential
at every mesh point.  The full property asks that every mesh accepted by the guard fits the arrays. -/
theorem C75_mesh_partial [FloorRing K] {α : Type} (rad width : K) (f : Nat → α) (blank : α) (hw : 0 < width)
    (hr : 0 ≤ rad) (n : Int) (r' : K) (xs : List α) (h : meshFill rad width f blank = .ok (n, r', xs)) :
    4 ≤ n ∧ n < 300 ∧ rad < r' ∧ r' ≤ rad + width ∧ r' = width * ((n - 3 : Int) : K) ∧ xs.length = 300 ∧
      ∀ i : Nat, (i : Int) ≤ n → xs[i]? = some (f i) := by
  obtain ⟨m, h1, h2, h3, h4⟩ := meshPoints_spec hw hr
  unfold meshFill at h
  rw [h4] at h
  by_cases hm : (300 : Int) < m + 3
  · rw [if_pos hm] at h; cases h
  · rw [if_neg hm] at h
    simp only [Res.bind_ok] at h
    rw [fillArr_spec] at h
    simp only [List.length_replicate, maxPoints] at h
    by_cases hf : (m + 3).toNat + 1 = 0 ∨ 0 + ((m + 3).toNat + 1) ≤ 300
    · rw [if_pos hf] at h
      simp only [Res.bind_ok] at h
      cases h
      refine ⟨by omega, by omega, h2, h3, ?_, by rw [List.length_map, List.length_range], ?_⟩
      · congr 2; omega
      · intro i hi
        rw [getElem_range_map _ (by omega), if_pos (by omega)]
    · rw [if_neg hf] at h
      cases h

/-- **C75**, the disagreement: the guard stops only meshes of more than `MAX_POINTS` steps, but a mesh of
exactly `MAX_POINTS` steps writes `MAX_POINTS + 1` entries: undefined behaviour. -/
theorem C75_overrun [FloorRing K] {α : Type} (rad width : K) (f : Nat → α) (blank : α) (hw : 0 < width)
    (hr : width * 296 ≤ rad) (hr' : rad < width * 297) : meshFill rad width f blank = .ub := by
  have h0 : 0 ≤ rad := by nlinarith
  obtain ⟨m, h1, h2, h3, h4⟩ := meshPoints_spec hw h0
  have hm : m = 297 := by
    have a1 : width * (296 : K) < width * (m : K) := lt_of_le_of_lt hr h2
    have a2 : width * (m : K) < width * (298 : K) := by linarith
    have b1 : (296 : K) < (m : K) := lt_of_mul_lt_mul_left a1 hw.le
    have b2 : (m : K) < (298 : K) := lt_of_mul_lt_mul_left a2 hw.le
    have c1 : (296 : Int) < m := by exact_mod_cast b1
    have c2 : m < (298 : Int) := by exact_mod_cast b2
    omega
  unfold meshFill
  rw [h4, hm]
  rw [if_neg (by omega)]
  simp only [Res.bind_ok]
  rw [fillArr_spec]
  simp only [List.length_replicate, maxPoints]
  rw [if_neg (by omega)]
  rfl

/-- **C75.** The seven-point rule at the matching point is exact for polynomials up to degree six. -/
theorem C75_derivative (p : Polynomial K) (hp : p.natDegree ≤ 6) (x h : K) (hh : h ≠ 0) :
    lagrange h (p.eval (x - 3 * h)) (p.eval (x - 2 * h)) (p.eval (x - h)) (p.eval (x + h)) (p.eval (x + 2 * h))
      (p.eval (x + 3 * h)) = p.derivative.eval x :=
  lagrange_exact p hp x h hh

example : okWith (meshFill (59 / 5 : ℚ) (1 / 5) (fun i : Nat => i) 0) (fun r =>
    decide (r.1 = 63 ∧ r.2.1 = 12 ∧ r.2.2[63]? = some 63)) = true := by decide +kernel
example : meshFill (593 / 10 : ℚ) (1 / 5) (fun i : Nat => i) 0 = .ub :=
  C75_overrun _ _ _ _ (by norm_num) (by norm_num) (by norm_num)
example : lagrange (1 / 2 : ℚ) ((1 / 2) ^ 6) (1 ^ 6) ((3 / 2) ^ 6) ((5 / 2) ^ 6) (3 ^ 6) ((7 / 2) ^ 6) = 6 * 2 ^ 5 := by
  norm_num [lagrange]

/-! ## C76: shape of the potential -/

/-- **C76.** The central potential is absorptive at every radius, for every form number and every set of
depths the library may return. -/
theorem C76_absorptive (ex : K → K) (hex : ∀ y, 0 < ex y) (potfm : Nat) (o : Omp K) (x : K) :
    0 ≤ (centralField ex potfm o x).im := by
  unfold centralField
  simp only
  rw [clampOmp_depths]
  exact radialMean_im_nonneg hex _ _ x _ (le_max_right _ _) (le_max_right _ _)

/-- **C76** (partial). Switching off forms whose depth is not positive changes nothing but those terms: the field is
the one the library's form number describes, with negative depths replaced by zero.  For the real part this
needs a positive real volume depth or a form without real surface term; the full property has no such
condition. -/
theorem C76_forms_partial (ex : K → K) (potfm : Nat) (o : Omp K) (x : K) (hp : potfm < 256) :
    (potfm &&& 0xf ≠ 7 → (centralField ex potfm o x).im = (radialMean ex (potfm >>> 4) (potfm &&& 0xf) x
      { o with vr := max o.vr 0, vi := max o.vi 0, si := max o.si 0 }).im) ∧
    (0 < o.vr ∨ (potfm >>> 4 ≠ 2 ∧ potfm >>> 4 ≠ 3) →
      (centralField ex potfm o x).re = (radialMean ex (potfm >>> 4) (potfm &&& 0xf) x
        { o with vr := max o.vr 0, vi := max o.vi 0, si := max o.si 0 }).re) :=
  ⟨fun h7 => centralField_im ex potfm o x hp h7, fun h => centralField_re ex potfm o x hp h⟩

/-- **C76**, the disagreement: a real volume depth that is not positive switches off the real surface term
(the mask clears bit `0x20` instead of `0x10`). -/
theorem C76_surface_dropped (ex : K → K) (hex : ∀ y, 0 < ex y) (o : Omp K) (x : K) (hv : o.vr ≤ 0)
    (hs : o.sr ≠ 0) :
    (centralField ex 0x30 o x).re = 0 ∧
    (radialMean ex 3 0 x { o with vr := max o.vr 0, vi := max o.vi 0, si := max o.si 0 }).re ≠ 0 := by
  constructor
  · unfold centralField
    simp only
    rw [clampOmp_depths, clampOmp_form, clamp_hi _ _ _ 0x30 (by omega)]
    simp [radialMean, hv]
  · have := (derivWS_range hex x o.r0s o.a0s).1
    simp only [radialMean, max_eq_right hv, zero_mul, zero_add]
    exact mul_ne_zero hs this.ne'

example : 0 ≤ (centralField Real.exp 0x13 ⟨50, -1, 0, 8, 7, 1, 0, 1, 7, 1, 7, 1⟩ 6).im :=
  C76_absorptive Real.exp Real.exp_pos _ _ _

example : (centralField (fun _ : ℚ => 1) 0x13 ⟨50, -1, 0, 8, 7, 1, 0, 1, 7, 1, 7, 1⟩ 7) = ⟨25, 8⟩ := by decide +kernel

end CGMF.Props

import Verif.Proofs.OpticalIn

/-! # Optical model: flux, phases, scaling and transmission coefficients -/

set_option linter.unusedSectionVars false

namespace CGMF.Opt

open CGMF.OptSpec

variable {K : Type} [Field K] [LinearOrder K] [IsStrictOrderedRing K]

/-- One mesh step changes the flux by the absorption at that point. -/
theorem flux_step {d2 : K} {q1 q2 q3 p1 p2 p3 : Cx K} (h : Rel d2 q1 q2 q3 p1 p2 p3) :
    flux (mul (den d2 q2) p2) (mul (den d2 q3) p3) =
      flux (mul (den d2 q1) p1) (mul (den d2 q2) p2) + 12 * d2 * q2.im * normSq p2 := by
  unfold Rel at h
  rw [h]
  unfold flux sub mul den normSq
  simp only
  ring

theorem flux_all {d2 : K} {q : Nat → Cx K} {w : List (Cx K)} (ht : Triples d2 q w) (hd : 0 ≤ d2)
    (hq : ∀ i, 1 ≤ i → (q i).im ≤ 0) (h0 : w[0]? = some ⟨0, 0⟩) :
    ∀ (i : Nat) (a b : Cx K), w[i]? = some a → w[i + 1]? = some b →
      flux (mul (den d2 (q i)) a) (mul (den d2 (q (i + 1))) b) ≤ 0 := by
  intro i
  induction i with
  | zero =>
    intro a b ha _
    rw [h0] at ha
    cases ha
    unfold flux mul
    simp
  | succ i ih =>
    intro a b ha hb
    obtain ⟨z, hz⟩ : ∃ z, w[i]? = some z := by
      have := (List.getElem?_eq_some_iff.mp ha).1
      exact ⟨w[i], List.getElem?_eq_getElem (by omega)⟩
    have hr := (ht i z a b hz ha hb).2
    rw [show i + 1 + 1 = i + 2 from rfl, flux_step hr]
    have h1 := ih z a hz ha
    have h2 := hq (i + 1) (by omega)
    have h3 : 0 ≤ normSq a := by unfold normSq; positivity
    have : 12 * d2 * (q (i + 1)).im * normSq a ≤ 0 := by
      apply mul_nonpos_of_nonpos_of_nonneg _ h3
      apply mul_nonpos_of_nonneg_of_nonpos _ h2
      positivity
    linarith

/-- With a real potential the phase of the wave function does not change over the mesh. -/
theorem phase_all {d2 eps : K} {q : Nat → Cx K} {w : List (Cx K)} (ht : Triples d2 q w)
    (hq : ∀ i, (q i).im = 0) {p : Cx K} (h0 : w[0]? = some ⟨0, 0⟩) (h1 : w[1]? = some p)
    (hp : p.im = eps * p.re) : ∀ (i : Nat) (a : Cx K), w[i]? = some a → a.im = eps * a.re := by
  intro i
  induction i using Nat.strong_induction_on with
  | _ i ih =>
    intro a ha
    match i, ih, ha with
    | 0, _, ha => rw [h0] at ha; cases ha; simp
    | 1, _, ha => rw [h1] at ha; cases ha; exact hp
    | i + 2, ih, ha =>
      have hlen := (List.getElem?_eq_some_iff.mp ha).1
      have hx : w[i]? = some w[i] := List.getElem?_eq_getElem (by omega)
      have hy : w[i + 1]? = some w[i + 1] := List.getElem?_eq_getElem (by omega)
      obtain ⟨hn, hr⟩ := ht i _ _ a hx hy ha
      have e1 := ih i (by omega) _ hx
      have e2 := ih (i + 1) (by omega) _ hy
      unfold Rel mul sub den at hr
      simp only [Cx.mk.injEq, hq, mul_zero, neg_zero, zero_mul, sub_zero, add_zero] at hr
      rw [hq] at hn
      simp only [mul_zero, neg_zero, and_true] at hn
      obtain ⟨r1, r2⟩ := hr
      apply mul_left_cancel₀ hn
      have r3 : (1 - d2 * (q (i + 2)).re) * (eps * a.re) = eps * ((1 - d2 * (q (i + 2)).re) * a.re) := by ring
      rw [r2, e1, e2, r3, r1]
      ring

/-- `readAt` through a map. -/
theorem readAt_map {α β : Type} (f : α → β) (xs : List α) (i : Int) :
    readAt (xs.map f) i = (readAt xs i).bind fun a => .ok (f a) := by
  unfold readAt
  by_cases h : 0 ≤ i ∧ i.toNat < xs.length
  · rw [dif_pos h, dif_pos (by simpa using h)]
    simp [Res.bind]
  · rw [dif_neg h, dif_neg (by simpa using h)]
    rfl

theorem fgStep_scale (c : Cx K) (d2 : K) (q1 q2 q3 p1 p2 : Cx K) :
    fgStep d2 q1 q2 q3 (mul c p1) (mul c p2) = (fgStep d2 q1 q2 q3 p1 p2).bind fun p => .ok (mul c p) := by
  unfold fgStep
  simp only
  cases rational 1 0 (1 - d2 * q3.re) (-(d2 * q3.im)) with
  | ok a =>
    simp only [Res.bind_ok, Res.bind]
    unfold mul
    simp only [Res.ok.injEq, Cx.mk.injEq]
    constructor <;> ring
  | exit => rfl
  | ub => rfl

theorem fgLoop_scale (c : Cx K) (pot : Pot K) (k2 d2 xlt sot : K) :
    ∀ (n i : Nat) (q1 q2 p1 p2 : Cx K) (acc : List (Cx K)),
      fgLoop pot k2 d2 xlt sot n i q1 q2 (mul c p1) (mul c p2) (acc.map (mul c)) =
        (fgLoop pot k2 d2 xlt sot n i q1 q2 p1 p2 acc).bind fun w => .ok (w.map (mul c)) := by
  intro n
  induction n with
  | zero => intro i q1 q2 p1 p2 acc; simp [fgLoop, Res.bind]
  | succ n ih =>
    intro i q1 q2 p1 p2 acc
    unfold fgLoop
    cases qAt pot k2 xlt sot (i : Int) with
    | ok q3 =>
      simp only [Res.bind_ok]
      rw [fgStep_scale]
      cases fgStep d2 q1 q2 q3 p1 p2 with
      | ok p3 =>
        simp only [Res.bind_ok, Res.bind]
        have : acc.map (mul c) ++ [mul c p3] = (acc ++ [p3]).map (mul c) := by simp
        rw [this, ih]
        rfl
      | exit => rfl
      | ub => rfl
    | exit => rfl
    | ub => rfl

/-- Multiplying the wave function by a complex constant. -/
theorem internal_scale (n : Nat) (h k2 l s j amp eps amp' eps' : K) (pot : Pot K) (ha : amp ≠ 0) :
    internal n h k2 l s j amp' eps' pot =
      (internal n h k2 l s j amp eps pot).bind fun w => .ok (w.map (mul
        ⟨amp' * (1 + eps' * eps) / (amp * (1 + eps * eps)), amp' * (eps' - eps) / (amp * (1 + eps * eps))⟩)) := by
  unfold internal
  simp only
  have he : (1 : K) + eps * eps ≠ 0 := by
    have := mul_self_nonneg eps
    linarith
  generalize hc : (⟨amp' * (1 + eps' * eps) / (amp * (1 + eps * eps)),
    amp' * (eps' - eps) / (amp * (1 + eps * eps))⟩ : Cx K) = c
  have e0 : (⟨0, 0⟩ : Cx K) = mul c ⟨0, 0⟩ := by unfold mul; simp
  have e1 : (⟨amp', amp' * eps'⟩ : Cx K) = mul c ⟨amp, amp * eps⟩ := by
    rw [← hc]
    unfold mul
    simp only [Cx.mk.injEq]
    constructor <;> field_simp <;> ring
  cases qAt pot k2 (l * (l + 1)) (j * (j + 1) - l * (l + 1) - s * (s + 1)) 1 with
  | ok q2 =>
    simp only [Res.bind_ok]
    have := fgLoop_scale c pot k2 (h * h / 12) (l * (l + 1)) (j * (j + 1) - l * (l + 1) - s * (s + 1))
      (n - 1) 2 ⟨0, 0⟩ q2 ⟨0, 0⟩ ⟨amp, amp * eps⟩ [⟨0, 0⟩, ⟨amp, amp * eps⟩]
    rw [← e0, ← e1] at this
    simp only [List.map_cons, List.map_nil] at this
    rw [← e0, ← e1] at this
    rw [this]
  | exit => rfl
  | ub => rfl

theorem rational_scale (c : Cx K) (hc : ¬ (c.re = 0 ∧ c.im = 0)) (a1 a2 b1 b2 : K) :
    rational (c.re * a1 - c.im * a2) (c.re * a2 + c.im * a1) (c.re * b1 - c.im * b2) (c.re * b2 + c.im * b1) =
      rational a1 a2 b1 b2 := by
  unfold rational
  simp only
  have hp := sq_add_pos hc
  have e : (c.re * b1 - c.im * b2) * (c.re * b1 - c.im * b2) + (c.re * b2 + c.im * b1) * (c.re * b2 + c.im * b1) =
      (c.re * c.re + c.im * c.im) * (b1 * b1 + b2 * b2) := by ring
  rw [e]
  by_cases h : b1 * b1 + b2 * b2 = 0
  · rw [if_pos h, if_pos (by rw [h]; ring)]
  · rw [if_neg h, if_neg (mul_ne_zero hp.ne' h)]
    congr 2
    · rw [show (c.re * a1 - c.im * a2) * (c.re * b1 - c.im * b2) + (c.re * a2 + c.im * a1) * (c.re * b2 + c.im * b1) =
        (c.re * c.re + c.im * c.im) * (a1 * b1 + a2 * b2) by ring, mul_div_mul_left _ _ hp.ne']
    · rw [show (c.re * a2 + c.im * a1) * (c.re * b1 - c.im * b2) - (c.re * a1 - c.im * a2) * (c.re * b2 + c.im * b1) =
        (c.re * c.re + c.im * c.im) * (a2 * b1 - a1 * b2) by ring, mul_div_mul_left _ _ hp.ne']

theorem smatrix_scale (c : Cx K) (hc : ¬ (c.re = 0 ∧ c.im = 0)) (m : Int) (mesh rm : K) (d1 d2 : Cx K)
    (w : List (Cx K)) : smatrix m mesh rm d1 d2 (w.map (mul c)) = smatrix m mesh rm d1 d2 w := by
  unfold smatrix
  simp only [readAt_map]
  cases readAt w (m - 3) with
  | exit => rfl
  | ub => rfl
  | ok win =>
  cases readAt w (m - 6) with
  | exit => rfl
  | ub => rfl
  | ok a =>
  cases readAt w (m - 5) with
  | exit => rfl
  | ub => rfl
  | ok b =>
  cases readAt w (m - 4) with
  | exit => rfl
  | ub => rfl
  | ok c' =>
  cases readAt w (m - 2) with
  | exit => rfl
  | ub => rfl
  | ok e =>
  cases readAt w (m - 1) with
  | exit => rfl
  | ub => rfl
  | ok f =>
  cases readAt w m with
  | exit => rfl
  | ub => rfl
  | ok g =>
    simp only [Res.bind, Res.bind_ok]
    by_cases hm : mesh = 0
    · rw [if_pos hm, if_pos hm]
    · rw [if_neg hm, if_neg hm]
      have e1 : lagrange mesh (mul c a).re (mul c b).re (mul c c').re (mul c e).re (mul c f).re (mul c g).re =
          c.re * lagrange mesh a.re b.re c'.re e.re f.re g.re - c.im * lagrange mesh a.im b.im c'.im e.im f.im g.im := by
        unfold lagrange mul; simp only; field_simp; ring
      have e2 : lagrange mesh (mul c a).im (mul c b).im (mul c c').im (mul c e).im (mul c f).im (mul c g).im =
          c.re * lagrange mesh a.im b.im c'.im e.im f.im g.im + c.im * lagrange mesh a.re b.re c'.re e.re f.re g.re := by
        unfold lagrange mul; simp only; field_simp; ring
      rw [e1, e2]
      have e3 : (mul c win).re = c.re * win.re - c.im * win.im := rfl
      have e4 : (mul c win).im = c.re * win.im + c.im * win.re := rfl
      rw [e3, e4, rational_scale c hc]

/-- The transmission coefficient does not see the starting value of the integration. -/
theorem tranOf_start (su : Setup K) (e : Ext K) (l j : Nat) (amp' : Nat → K) (eps' : K)
    (h1 : su.amp l ≠ 0) (h2 : amp' l ≠ 0) :
    tranOf { su with amp := amp', eps := eps' } e l j = tranOf su e l j := by
  unfold tranOf
  cases matching e su.rhoMatch l with
  | exit => rfl
  | ub => rfl
  | ok ab =>
    simp only [Res.bind_ok]
    split
    · rfl
    · rw [internal_scale su.n su.width su.wavesq (l : K) su.spin _ (su.amp l) su.eps (amp' l) eps' su.pot h1]
      cases internal su.n su.width su.wavesq (l : K) su.spin ((l : K) + su.spin - (j : K)) (su.amp l) su.eps su.pot with
      | exit => rfl
      | ub => rfl
      | ok w =>
        have hc : ¬ (amp' l * (1 + eps' * su.eps) / (su.amp l * (1 + su.eps * su.eps)) = 0 ∧
            amp' l * (eps' - su.eps) / (su.amp l * (1 + su.eps * su.eps)) = 0) := by
          have he : (1 : K) + su.eps * su.eps ≠ 0 := by
            have := mul_self_nonneg su.eps
            linarith
          rintro ⟨g1, g2⟩
          rw [div_eq_zero_iff, or_iff_left (mul_ne_zero h1 he), mul_eq_zero, or_iff_right h2] at g1 g2
          have : eps' = su.eps := by linarith
          rw [this] at g1
          exact he g1
        simp only [Res.bind, Res.bind_ok]
        rw [smatrix_scale _ hc]

/-- Modulus of a quotient. -/
theorem absolute_rational {a1 a2 b1 b2 : K} {c : Cx K} (h : rational a1 a2 b1 b2 = .ok c) :
    absolute c * (b1 * b1 + b2 * b2) = a1 * a1 + a2 * a2 := by
  obtain ⟨_, h2⟩ := rational_ok.mp h
  unfold mul at h2
  simp only [Cx.mk.injEq] at h2
  rw [← h2.1, ← h2.2]
  unfold absolute
  ring

theorem lagrange_eq (h a b c e f g : K) : lagrange h a b c e f g = sevenPoint h a b c e f g := by
  unfold lagrange sevenPoint
  by_cases hh : h = 0
  · rw [hh]; simp
  · field_simp; ring

theorem readAt_back {α : Type} {w : List α} {m k : Nat} {a : α} (h : readAt w ((m : Int) - (k : Int)) = .ok a) :
    k ≤ m ∧ w[m - k]? = some a := by
  rw [readAt_ok_iff] at h
  obtain ⟨h1, h2⟩ := h
  refine ⟨by omega, ?_⟩
  rw [show ((m : Int) - (k : Int)).toNat = m - k by omega] at h2
  exact h2

theorem smatrix_ok {m : Nat} {mesh rm : K} {d1 d2 s : Cx K} {w : List (Cx K)}
    (h : smatrix (m : Int) mesh rm d1 d2 w = .ok s) : ∃ win dwin q u : Cx K, AtMatch m mesh w win dwin ∧
      rational dwin.re dwin.im win.re win.im = .ok q ∧
      rational (q.re * rm - d1.re) (q.im * rm + d1.im) (q.re * rm - d1.re) (q.im * rm - d1.im) = .ok u ∧
      s = mul u d2 := by
  unfold smatrix at h
  obtain ⟨win, h1, h⟩ := Res.bind_eq_ok.mp h
  obtain ⟨a, h2, h⟩ := Res.bind_eq_ok.mp h
  obtain ⟨b, h3, h⟩ := Res.bind_eq_ok.mp h
  obtain ⟨c, h4, h⟩ := Res.bind_eq_ok.mp h
  obtain ⟨e, h5, h⟩ := Res.bind_eq_ok.mp h
  obtain ⟨f, h6, h⟩ := Res.bind_eq_ok.mp h
  obtain ⟨g, h7, h⟩ := Res.bind_eq_ok.mp h
  by_cases hm : mesh = 0
  · rw [if_pos hm] at h; cases h
  · rw [if_neg hm] at h
    simp only at h
    obtain ⟨q, h8, h⟩ := Res.bind_eq_ok.mp h
    obtain ⟨u, h9, h⟩ := Res.bind_eq_ok.mp h
    cases h
    have g1 := readAt_back (k := 3) h1
    have g2 := readAt_back (k := 6) h2
    have g3 := readAt_back (k := 5) h3
    have g4 := readAt_back (k := 4) h4
    have g5 := readAt_back (k := 2) h5
    have g6 := readAt_back (k := 1) h6
    have g7 : w[m]? = some g := by
      rw [readAt_ok_iff] at h7
      simpa using h7.2
    rw [lagrange_eq, lagrange_eq] at h8
    exact ⟨win, ⟨sevenPoint mesh a.re b.re c.re e.re f.re g.re, sevenPoint mesh a.im b.im c.im e.im f.im g.im⟩, q, u,
      ⟨g2.1, hm, g1.2, a, b, c, e, f, g, g2.2, g3.2, g4.2, g5.2, g6.2, g7, rfl⟩, h8, h9, rfl⟩

theorem absolute_mul (a b : Cx K) : absolute (mul a b) = absolute a * absolute b := by
  unfold absolute mul; ring

theorem clampT_eq (s : Cx K) : clampT s = max 0 (1 - absolute s) := by
  unfold clampT
  split
  · rename_i h; rw [max_eq_left h.le]
  · rename_i h; rw [max_eq_right (not_lt.mp h)]

theorem absolute_nonneg (s : Cx K) : 0 ≤ absolute s := by
  unfold absolute; exact add_nonneg (mul_self_nonneg _) (mul_self_nonneg _)

/-- One minus the square of the S matrix element, in terms of the logarithmic derivatives. -/
theorem one_sub_smatrix {m : Nat} {mesh rm : K} {d1 d2 s : Cx K} {w : List (Cx K)}
    (h : smatrix (m : Int) mesh rm d1 d2 w = .ok s) (hd : absolute d2 = 1) : ∃ win dwin q : Cx K,
      AtMatch m mesh w win dwin ∧ ¬ (win.re = 0 ∧ win.im = 0) ∧ mul win q = dwin ∧
      0 < (q.re * rm - d1.re) ^ 2 + (q.im * rm - d1.im) ^ 2 ∧
      1 - absolute s = -(4 * (q.im * rm) * d1.im) / ((q.re * rm - d1.re) ^ 2 + (q.im * rm - d1.im) ^ 2) := by
  obtain ⟨win, dwin, q, u, h1, h2, h3, h4⟩ := smatrix_ok h
  obtain ⟨h5, h6⟩ := rational_ok.mp h2
  have h7 := absolute_rational h3
  have hn := (rational_ok.mp h3).1
  have hp := sq_add_pos hn
  refine ⟨win, dwin, q, h1, h5, h6, by nlinarith, ?_⟩
  rw [h4, absolute_mul, hd, mul_one, eq_div_iff (by nlinarith)]
  nlinarith

/-- Matching constants of an outer wave function with unit Wronskian. -/
theorem matching_unit {e : Ext K} {rho : K} {l : Nat} {g f dg df : K}
    (h1 : e.G[l]? = some g) (h2 : e.F[l]? = some f) (h3 : e.dG[l]? = some dg) (h4 : e.dF[l]? = some df)
    (hw : df * g - dg * f = 1) : ∃ a b : Cx K, matching e rho l = .ok (a, b) ∧ 0 < g ^ 2 + f ^ 2 ∧
      a.im = rho / (g ^ 2 + f ^ 2) ∧ a.re = rho * (g * dg + f * df) / (g ^ 2 + f ^ 2) ∧ absolute b = 1 := by
  have hn : ¬ (g = 0 ∧ f = 0) := by
    rintro ⟨rfl, rfl⟩; simp at hw
  have hp := sq_add_pos hn
  have r : ∀ {xs : List K} {x : K}, xs[l]? = some x → readAt xs (l : Int) = .ok x := by
    intro xs x hx
    rw [readAt_ok_iff]
    exact ⟨by omega, by simpa using hx⟩
  unfold matching
  rw [r h1, r h2, r h3, r h4]
  simp only [Res.bind_ok]
  unfold rational
  simp only
  rw [if_neg hp.ne', if_neg hp.ne']
  simp only [Res.bind_ok]
  refine ⟨_, _, rfl, by nlinarith, ?_, ?_, ?_⟩
  · simp only
    rw [div_mul_eq_mul_div, hw]
    rw [show g * g + f * f = g ^ 2 + f ^ 2 by ring]
    ring
  · simp only
    rw [show g * g + f * f = g ^ 2 + f ^ 2 by ring]
    ring
  · unfold absolute
    simp only
    rw [div_mul_div_comm, div_mul_div_comm, ← add_div, div_eq_one_iff_eq (mul_ne_zero hp.ne' hp.ne')]
    ring

end CGMF.Opt

import Verif.Model.LevDen
import Verif.Tactics
import Mathlib.Analysis.SpecialFunctions.Log.Deriv
import Mathlib.Analysis.SpecialFunctions.Pow.Deriv
import Mathlib.Analysis.SpecialFunctions.Integrals.Basic

/-! # Lemmas about level densities -/

namespace CGMF.LevDen

open Real

theorem bind_ok_iff {α β : Type*} {x : Res α} {f : α → Res β} {b : β} :
    x.bind f = .ok b ↔ ∃ a, x = .ok a ∧ f a = .ok b := by
  cases x <;> simp [Res.bind]

theorem spinCutoff_pos {u a mass s0 s : ℝ} (hm : 0 < mass) (h : spinCutoff u a mass s0 = .ok s) : 0 < s ∧ 0 < a := by
  unfold spinCutoff at h
  by_cases hc : a ≤ 0 ∨ mass < 0
  · rw [if_pos hc] at h; cases h
  · rw [if_neg hc] at h
    push Not at hc
    simp only [Res.ok.injEq] at h
    have hu : 0 < (if u < 1 / 2 then 1 / 2 else u) := by split <;> linarith
    generalize (if u < 1 / 2 then 1 / 2 else u) = v at h hu
    refine ⟨?_, hc.1⟩
    rw [← h]
    refine lt_max_of_lt_left (sqrt_pos.2 ?_)
    have h1 : 0 < √(v / a) := sqrt_pos.2 (div_pos hu hc.1)
    have h2 : 0 < mass ^ (5 / 3 : ℝ) := rpow_pos_of_pos hm _
    positivity

theorem fermiGas_pos {u a s d : ℝ} (hs : 0 < s) (hu : 0 < u) (h : fermiGas u a s = .ok d) : 0 < d := by
  unfold fermiGas at h
  rw [if_neg (not_lt.2 hu.le)] at h
  by_cases hc : u = 0 ∨ a ≤ 0 ∨ s = 0
  · rw [if_pos hc] at h; cases h
  · rw [if_neg hc] at h
    push Not at hc
    simp only [Res.ok.injEq] at h
    have ha := hc.2.1
    rw [← h]
    have h1 : 0 < a ^ (1 / 4 : ℝ) := rpow_pos_of_pos ha _
    have h2 : 0 < u ^ (5 / 4 : ℝ) := rpow_pos_of_pos hu _
    positivity

theorem tgTemp_spec {mass lve ex t a : ℝ} {p : Ldp} (h : tgTemp mass lve p ex = .ok (t, a)) :
    0 < ex - p.pairing ∧ a = shellCorrection (max (lve - p.pairing) (ex - p.pairing)) p.a p.shell mass ∧
      t = 1 / (√(a / (ex - p.pairing)) - 3 / (2 * (ex - p.pairing))) ∧ t ≠ 0 := by
  unfold tgTemp at h
  dsimp only at h
  split at h
  · cases h
  · rename_i hc
    push Not at hc
    split at h
    · cases h
    · rename_i hd
      simp only [Res.ok.injEq, Prod.mk.injEq] at h
      obtain ⟨h1, h2⟩ := h
      subst h2
      exact ⟨hc.1, rfl, h1.symm, by rw [← h1]; exact one_div_ne_zero hd⟩

theorem tgShifts_spec {mass lve lvn ex t a e1 e2 : ℝ} {p : Ldp}
    (h : tgShifts mass lve lvn p ex t a = .ok (e1, e2)) :
    0 < lve ∧ ∃ s fg, spinCutoff (ex - p.pairing) a mass p.sigma0 = .ok s ∧ fermiGas (ex - p.pairing) a s = .ok fg ∧
      0 < t * fg ∧ e1 = t * log ((exp (lve / t) - 1) / lvn) ∧ e2 = ex - t * log (t * fg) := by
  unfold tgShifts at h
  dsimp only at h
  split at h
  · cases h
  · rename_i hl
    rw [bind_ok_iff] at h
    obtain ⟨s, hs, h⟩ := h
    rw [bind_ok_iff] at h
    obtain ⟨fg, hf, h⟩ := h
    split at h
    · cases h
    · rename_i hp
      simp only [Res.ok.injEq, Prod.mk.injEq] at h
      exact ⟨not_le.1 hl, s, fg, hs, hf, not_le.1 hp, h.1.symm, h.2.symm⟩

/-- What a successful bisection has found. -/
structure Found (mass lve lvn : ℝ) (p : Ldp) (t e0 ex : ℝ) : Prop where
  tpos : 0 < t
  lpos : 0 < lve
  upos : 0 < ex - p.pairing
  shift : e0 = t * log ((exp (lve / t) - 1) / lvn)
  slope : t = 1 / (√(shellCorrection (max (lve - p.pairing) (ex - p.pairing)) p.a p.shell mass / (ex - p.pairing))
    - 3 / (2 * (ex - p.pairing)))
  gas : ∃ s fg, spinCutoff (ex - p.pairing)
      (shellCorrection (max (lve - p.pairing) (ex - p.pairing)) p.a p.shell mass) mass p.sigma0 = .ok s ∧
    fermiGas (ex - p.pairing) (shellCorrection (max (lve - p.pairing) (ex - p.pairing)) p.a p.shell mass) s = .ok fg ∧
    0 < t * fg ∧ |e0 - (ex - t * log (t * fg))| ≤ 1 / 1000000

theorem tgLoop_spec {mass lve lvn : ℝ} {p : Ldp} : ∀ (n : Nat) (lo hi : ℝ), lo < hi → ∀ t e0 ex,
    tgLoop mass lve lvn p n lo hi = .ok (t, e0, ex) →
      (t = 0 ∧ e0 = 0 ∧ ex = 0) ∨ (Found mass lve lvn p t e0 ex ∧ lo < ex ∧ ex < hi) := by
  intro n
  induction n with
  | zero =>
    intro lo hi _ t e0 ex h
    rw [tgLoop, bind_ok_iff] at h
    obtain ⟨_, _, h⟩ := h
    simp only [Res.ok.injEq, Prod.mk.injEq] at h
    exact .inl ⟨h.1.symm, h.2.1.symm, h.2.2.symm⟩
  | succ n ih =>
    intro lo hi hlh t e0 ex h
    rw [tgLoop] at h
    dsimp only at h
    rw [bind_ok_iff] at h
    obtain ⟨⟨t', a⟩, ht, h⟩ := h
    dsimp only at h
    split at h
    · simp only [Res.ok.injEq, Prod.mk.injEq] at h
      exact .inl ⟨h.1.symm, h.2.1.symm, h.2.2.symm⟩
    · rename_i htn
      rw [bind_ok_iff] at h
      obtain ⟨⟨e1, e2⟩, he, h⟩ := h
      dsimp only at h
      split at h
      · split at h
        · rcases ih _ _ (by linarith) _ _ _ h with h | ⟨h, h1, h2⟩
          · exact .inl h
          · exact .inr ⟨h, by linarith, h2⟩
        · rcases ih _ _ (by linarith) _ _ _ h with h | ⟨h, h1, h2⟩
          · exact .inl h
          · exact .inr ⟨h, h1, by linarith⟩
      · rename_i heps
        simp only [Res.ok.injEq, Prod.mk.injEq] at h
        obtain ⟨rfl, rfl, rfl⟩ := h
        obtain ⟨hu, ha, htt, ht0⟩ := tgTemp_spec ht
        obtain ⟨hl, s, fg, hs, hf, hp, h1, h2⟩ := tgShifts_spec he
        subst ha
        refine .inr ⟨⟨lt_of_le_of_ne (not_lt.1 htn) (Ne.symm ht0), hl, hu, h1, htt, s, fg, hs, hf, hp, ?_⟩,
          by linarith, by linarith⟩
        rw [← h2]
        exact not_lt.1 heps

/-- The constant-temperature density integrated up to `lve`. -/
theorem cumulative {t lve lvn : ℝ} (ht : 0 < t) (hl : 0 < lve) (hn : 0 < lvn) :
    ∫ x in (0 : ℝ)..lve, exp ((x - t * log ((exp (lve / t) - 1) / lvn)) / t) / t = lvn := by
  set e0 := t * log ((exp (lve / t) - 1) / lvn) with he
  have hd : ∀ x ∈ Set.uIcc (0 : ℝ) lve, HasDerivAt (fun x => exp ((x - e0) / t)) (exp ((x - e0) / t) / t) x := by
    intro x _
    have h1 : HasDerivAt (fun x : ℝ => (x - e0) / t) (1 / t) x := ((hasDerivAt_id x).sub_const e0).div_const t
    have h2 := h1.exp
    rw [mul_one_div] at h2
    exact h2
  rw [intervalIntegral.integral_eq_sub_of_hasDerivAt hd]
  · have hq : 0 < (exp (lve / t) - 1) / lvn := by
      have : 1 < exp (lve / t) := one_lt_exp_iff.2 (div_pos hl ht)
      exact div_pos (by linarith) hn
    have h0 : e0 / t = log ((exp (lve / t) - 1) / lvn) := by rw [he]; field_simp
    rw [sub_div, sub_div, exp_sub, exp_sub, h0, exp_log hq, zero_div, exp_zero]
    have h3 : exp (lve / t) - 1 ≠ 0 := by
      have : 1 < exp (lve / t) := one_lt_exp_iff.2 (div_pos hl ht)
      linarith
    field_simp
  · refine Continuous.intervalIntegrable ?_ _ _
    fun_prop

end CGMF.LevDen

namespace CGMF.LevDen

open Real Filter Topology

/-- Fermi gas with its spin cut-off, away from the floors of the cut-off. -/
noncomputable def gasForm (a mass v : ℝ) : ℝ :=
  1 / (12 * √2) * exp (2 * √(a * v)) / (a ^ (1 / 4 : ℝ) * v ^ (5 / 4 : ℝ)) /
    √(6945 / 1000000 * √(v / a) * mass ^ (5 / 3 : ℝ))

theorem gas_near {u a mass s0 s : ℝ} (hu : 1 / 2 < u) (hm : 0 < mass)
    (hs : spinCutoff u a mass s0 = .ok s) (hs0 : s0 < s) :
    ∀ᶠ v in 𝓝 u, (spinCutoff v a mass s0).bind (fermiGas v a) = .ok (gasForm a mass v) := by
  have ha : 0 < a := (spinCutoff_pos hm hs).2
  have hm53 : 0 < mass ^ (5 / 3 : ℝ) := rpow_pos_of_pos hm _
  have hlt : s0 < √(6945 / 1000000 * √(u / a) * mass ^ (5 / 3 : ℝ)) := by
    unfold spinCutoff at hs
    rw [if_neg (by push Not; exact ⟨ha, hm.le⟩)] at hs
    simp only [Res.ok.injEq] at hs
    rw [if_neg (not_lt.2 hu.le)] at hs
    rcases max_choice (√(6945 / 1000000 * √(u / a) * mass ^ (5 / 3 : ℝ))) s0 with h | h
    · rw [h] at hs; rw [hs]; exact hs0
    · rw [h] at hs; exact absurd hs hs0.ne
  have hc : Continuous fun v : ℝ => √(6945 / 1000000 * √(v / a) * mass ^ (5 / 3 : ℝ)) := by fun_prop
  filter_upwards [hc.continuousAt.eventually (lt_mem_nhds hlt), lt_mem_nhds hu] with v hv1 hv2
  have hv : 0 < v := by linarith
  have hp : 0 < √(6945 / 1000000 * √(v / a) * mass ^ (5 / 3 : ℝ)) := by
    have : 0 < √(v / a) := sqrt_pos.2 (div_pos hv ha)
    exact sqrt_pos.2 (by positivity)
  unfold spinCutoff
  rw [if_neg (by push Not; exact ⟨ha, hm.le⟩)]
  simp only [Res.bind]
  rw [if_neg (not_lt.2 hv2.le), max_eq_left hv1.le]
  unfold fermiGas gasForm
  rw [if_neg (not_lt.2 hv.le), if_neg]
  push Not
  exact ⟨hv.ne', ha, hp.ne'⟩

theorem log_gasForm {a mass v : ℝ} (ha : 0 < a) (hm : 0 < mass) (hv : 0 < v) :
    log (gasForm a mass v) = (log (1 / (12 * √2)) - 1 / 4 * log a
      - 1 / 2 * (log (6945 / 1000000) - 1 / 2 * log a + 5 / 3 * log mass)) + 2 * √(a * v) - 3 / 2 * log v := by
  have hm53 : 0 < mass ^ (5 / 3 : ℝ) := rpow_pos_of_pos hm _
  have h1 : 0 < a ^ (1 / 4 : ℝ) := rpow_pos_of_pos ha _
  have h2 : 0 < v ^ (5 / 4 : ℝ) := rpow_pos_of_pos hv _
  have h3 : 0 < √(v / a) := sqrt_pos.2 (div_pos hv ha)
  have h4 : 0 < 6945 / 1000000 * √(v / a) * mass ^ (5 / 3 : ℝ) := by positivity
  have h5 : 0 < √(6945 / 1000000 * √(v / a) * mass ^ (5 / 3 : ℝ)) := sqrt_pos.2 h4
  have h6 : (0 : ℝ) < 1 / (12 * √2) := by positivity
  unfold gasForm
  rw [log_div (by positivity) h5.ne', log_div (by positivity) (by positivity), log_mul h6.ne' (exp_pos _).ne', log_exp,
    log_mul h1.ne' h2.ne', log_rpow ha, log_rpow hv, log_sqrt h4.le, log_mul (by positivity) hm53.ne',
    log_mul (by norm_num) h3.ne', log_sqrt (by positivity), log_div hv.ne' ha.ne', log_rpow hm]
  ring

theorem log_gas_deriv {u a mass : ℝ} (hu : 0 < u) (ha : 0 < a) (hm : 0 < mass) :
    HasDerivAt (fun v => log (gasForm a mass v)) (√(a / u) - 3 / (2 * u)) u := by
  have hau : 0 < a * u := mul_pos ha hu
  have h1 : HasDerivAt (fun v : ℝ => a * v) a u := by simpa using (hasDerivAt_id u).const_mul a
  have h2 := (h1.sqrt hau.ne').const_mul 2
  have h3 := (hasDerivAt_log hu.ne').const_mul (3 / 2 : ℝ)
  have h4 := ((h2.const_add (log (1 / (12 * √2)) - 1 / 4 * log a
      - 1 / 2 * (log (6945 / 1000000) - 1 / 2 * log a + 5 / 3 * log mass))).sub h3)
  have h5 : 2 * (a / (2 * √(a * u))) - 3 / 2 * u⁻¹ = √(a / u) - 3 / (2 * u) := by
    have e1 : √(a / u) = a / √(a * u) := by
      rw [eq_div_iff (sqrt_pos.2 hau).ne', ← sqrt_mul (div_pos ha hu).le]
      rw [show a / u * (a * u) = a ^ 2 by field_simp, sqrt_sq ha.le]
    rw [e1]
    have := (sqrt_pos.2 hau).ne'
    field_simp
  rw [h5] at h4
  refine h4.congr_of_eventuallyEq ?_
  filter_upwards [lt_mem_nhds hu] with v hv
  rw [log_gasForm ha hm hv]
  rfl

/-- The Fermi gas density at the matching energy, as `levelDensity` computes it later. -/
theorem match_density {mass lve lvn t e0 ex : ℝ} {p : Ldp} (f : Found mass lve lvn p t e0 ex) (hx : ex ≠ 0)
    (hle : lve ≤ ex) :
    ∃ fg s, levelDensity ex mass { p with temp := t, e0 := e0, matchE := ex } = .ok (fg, s) ∧ 0 < fg ∧
      |log fg - log (exp ((ex - e0) / t) / t)| ≤ 1 / 1000000 / t := by
  obtain ⟨s, fg, hs, hf, hp, he⟩ := f.gas
  have ht := f.tpos
  have hfg : 0 < fg := by
    by_contra hn
    exact absurd hp (not_lt.2 (mul_nonpos_of_nonneg_of_nonpos ht.le (not_lt.1 hn)))
  rw [max_eq_right (by linarith)] at hs hf
  refine ⟨fg, s, ?_, hfg, ?_⟩
  · unfold levelDensity densityParameter
    simp only [if_neg hx, lt_irrefl, if_false, hs, Res.bind, hf]
  · rw [log_div (exp_pos _).ne' ht.ne', log_exp]
    rw [log_mul ht.ne' hfg.ne'] at he
    have : log fg - ((ex - e0) / t - log t) = (e0 - (ex - t * (log t + log fg))) / t := by
      field_simp
      ring
    rw [this, abs_div, abs_of_pos ht]
    exact div_le_div_of_nonneg_right he ht.le

theorem spinDistribution_spec {j sc sc0 r : ℝ} (h : spinDistribution j sc sc0 = .ok r) :
    (r = 0 ∨ 1 / 10 ^ 10 ≤ r) := by
  unfold spinDistribution at h
  dsimp only at h
  split at h
  · cases h
  · simp only [Res.ok.injEq] at h
    split at h
    · exact .inl h.symm
    · rename_i hc
      right; rw [← h]; exact not_lt.1 hc

theorem spinDistribution_nonneg {j sc sc0 r : ℝ} (h : spinDistribution j sc sc0 = .ok r) : 0 ≤ r := by
  unfold spinDistribution at h
  dsimp only at h
  split at h
  · cases h
  · simp only [Res.ok.injEq] at h
    split at h
    · exact h.le
    · rename_i hc
      rw [← h]; exact le_trans (by norm_num) (not_lt.1 hc)

theorem levelDensity_pos {ex mass d s : ℝ} {p : Ldp} (hm : 0 < mass) (ht : 0 < p.temp)
    (hp : p.matchE ≠ 0 → p.pairing < p.matchE) (h : levelDensity ex mass p = .ok (d, s)) : 0 < d := by
  unfold levelDensity at h
  have hct : ∀ d', constTemp ex p.e0 p.temp = .ok d' → 0 < d' := by
    intro d' h'
    unfold constTemp at h'
    rw [if_neg ht.ne'] at h'
    simp only [Res.ok.injEq] at h'
    rw [← h']; exact div_pos (exp_pos _) ht
  by_cases hz : p.matchE = 0
  · rw [if_pos hz, bind_ok_iff] at h
    obtain ⟨d', h', h⟩ := h
    simp only [Res.ok.injEq, Prod.mk.injEq] at h
    rw [← h.1]; exact hct _ h'
  · rw [if_neg hz] at h
    dsimp only at h
    rw [bind_ok_iff] at h
    obtain ⟨sc, hsc, h⟩ := h
    rw [bind_ok_iff] at h
    obtain ⟨d', h', h⟩ := h
    simp only [Res.ok.injEq, Prod.mk.injEq] at h
    rw [← h.1]
    by_cases hx : ex < p.matchE
    · rw [if_pos hx] at h'; exact hct _ h'
    · rw [if_neg hx] at h'
      exact fermiGas_pos (spinCutoff_pos hm hsc).1 (by linarith [hp hz]) h'

/-- One row of the table. -/
theorem densityBin_spec {ex mass : ℝ} {js : List ℝ} {p p' : Ldp} {row : List (ℝ × ℝ)}
    (h : densityBin ex mass js p = .ok (row, p')) :
    ∃ d s, levelDensity ex mass p = .ok (d, s) ∧ p' = { p with spinCut := s } ∧
      List.Forall₂ (fun j c => ∃ sd, spinDistribution j s p.sigma0 = .ok sd ∧ c = (d * sd / 2, d * sd / 2)) js row := by
  unfold densityBin at h
  rw [bind_ok_iff] at h
  obtain ⟨⟨d, s⟩, hd, h⟩ := h
  dsimp only at h
  rw [bind_ok_iff] at h
  obtain ⟨row', hr, h⟩ := h
  simp only [Res.ok.injEq, Prod.mk.injEq] at h
  obtain ⟨rfl, rfl⟩ := h
  refine ⟨d, s, hd, rfl, ?_⟩
  clear hd
  induction js generalizing row' with
  | nil => simp only [List.foldr_nil, Res.ok.injEq] at hr; subst hr; exact .nil
  | cons j js ih =>
    rw [List.foldr_cons, bind_ok_iff] at hr
    obtain ⟨sd, hs, hr⟩ := hr
    rw [bind_ok_iff] at hr
    obtain ⟨rest, hrest, hr⟩ := hr
    simp only [Res.ok.injEq] at hr
    subst hr
    refine .cons ⟨sd, hs, ?_⟩ (ih _ hrest)
    unfold parityDistribution
    norm_num
    ring_nf

theorem shellCorrection_mul (u x c dw mass : ℝ) :
    shellCorrection u (x * c) dw mass = x * shellCorrection u c dw mass := by
  unfold shellCorrection
  dsimp only
  split
  · ring
  · rfl

theorem txLoop_spec {mass : ℝ} {p : Ldp} : ∀ (n : Nat) (lo hi : ℝ), lo < hi → ∀ a ux,
    txLoop mass p n lo hi = .ok (some (a, ux)) →
      lo < ux + p.pairing ∧ ux + p.pairing < hi ∧ p.temp ≠ 0 ∧ ux ≠ 0 ∧
        a = (1 / p.temp + 3 / 2 / ux) * (1 / p.temp + 3 / 2 / ux) * ux ∧
        ∃ r1 s r2, constTemp (ux + p.pairing) p.e0 p.temp = .ok r1 ∧ spinCutoff ux a mass p.sigma0 = .ok s ∧
          fermiGas ux a s = .ok r2 ∧ |r1 - r2| ≤ 1 / 1000000 := by
  intro n
  induction n with
  | zero =>
    intro lo hi _ a ux h
    rw [txLoop] at h
    dsimp only at h
    split at h
    · cases h
    · rw [bind_ok_iff] at h
      obtain ⟨_, _, h⟩ := h
      rw [bind_ok_iff] at h
      obtain ⟨_, _, h⟩ := h
      rw [bind_ok_iff] at h
      obtain ⟨_, _, h⟩ := h
      cases h
  | succ n ih =>
    intro lo hi hlh a ux h
    rw [txLoop] at h
    dsimp only at h
    split at h
    · cases h
    · rename_i hc
      push Not at hc
      rw [bind_ok_iff] at h
      obtain ⟨r1, h1, h⟩ := h
      rw [bind_ok_iff] at h
      obtain ⟨s, h2, h⟩ := h
      rw [bind_ok_iff] at h
      obtain ⟨r2, h3, h⟩ := h
      split at h
      · split at h
        · obtain ⟨q1, q2, q⟩ := ih _ _ (by linarith) _ _ h
          exact ⟨q1, by linarith, q⟩
        · obtain ⟨q1, q2, q⟩ := ih _ _ (by linarith) _ _ h
          exact ⟨by linarith, q2, q⟩
      · rename_i heps
        simp only [Res.ok.injEq, Option.some.injEq, Prod.mk.injEq] at h
        obtain ⟨rfl, rfl⟩ := h
        refine ⟨by linarith, by linarith, hc.1, hc.2, rfl, r1, s, r2, ?_, h2, h3, not_lt.1 heps⟩
        rw [sub_add_cancel]; exact h1

theorem tExtrapolate_spec {mass lve : ℝ} {p p' : Ldp} (hm : 0 < mass) (hlo : max p.pairing lve < 100)
    (h : tExtrapolate mass lve p = .ok p') :
    p' = { p with matchE := 0 } ∨
      (max p.pairing lve < p'.matchE ∧ p'.matchE < 100 ∧ p'.pairing = p.pairing ∧ p'.temp = p.temp ∧ p'.e0 = p.e0 ∧
        (p'.matchE ≠ 0 → ∃ ct fg s, constTemp p'.matchE p'.e0 p'.temp = .ok ct ∧
          levelDensity p'.matchE mass p' = .ok (fg, s) ∧ |ct - fg| ≤ 1 / 1000000)) := by
  unfold tExtrapolate at h
  rw [bind_ok_iff] at h
  obtain ⟨r, hr, h⟩ := h
  rcases r with _ | ⟨a, ux⟩
  · simp only [Res.ok.injEq] at h
    exact .inl h.symm
  · obtain ⟨q1, q2, ht, hu, ha, r1, s, r2, h1, h2, h3, h4⟩ := txLoop_spec _ _ _ hlo _ _ hr
    have hapos := (spinCutoff_pos hm h2).2
    dsimp only at h
    rw [if_pos hapos] at h
    split at h
    · cases h
    · rename_i hf
      simp only [Res.ok.injEq] at h
      subst h
      refine .inr ⟨q1, q2, rfl, rfl, rfl, fun hne => ⟨r1, r2, s, h1, ?_, h4⟩⟩
      have e : shellCorrection ux (a / shellCorrection ux 1 p.shell mass) p.shell mass = a := by
        have := shellCorrection_mul ux (a / shellCorrection ux 1 p.shell mass) 1 p.shell mass
        rw [mul_one] at this
        rw [this]; field_simp
      dsimp only at hne
      unfold levelDensity densityParameter
      simp only [if_neg hne, lt_irrefl, if_false, add_sub_cancel_right, e, h2, Res.bind, h3]

theorem levelDensity_fresh {ex mass : ℝ} {p : Ldp} (c : ℝ) (h : p.matchE ≠ 0) :
    levelDensity ex mass { p with spinCut := c } = levelDensity ex mass p := by
  unfold levelDensity densityParameter
  simp only [if_neg h]

theorem densityTable_fresh {mass : ℝ} {js : List ℝ} {p : Ldp} (h : p.matchE ≠ 0) (exs : List ℝ) (c : ℝ) (hne : exs ≠ []) :
    densityTable mass js exs { p with spinCut := c } = densityTable mass js exs p := by
  cases exs with
  | nil => exact absurd rfl hne
  | cons ex exs =>
    rw [densityTable, densityTable]
    have : densityBin ex mass js { p with spinCut := c } = densityBin ex mass js p := by
      unfold densityBin
      rw [levelDensity_fresh c h]
    rw [this]

theorem densityTable_rows {mass : ℝ} {js : List ℝ} (hm : 0 < mass) : ∀ (exs : List ℝ) (p p' : Ldp) rows, 0 < p.temp →
    (p.matchE ≠ 0 → p.pairing < p.matchE) → densityTable mass js exs p = .ok (rows, p') →
    List.Forall₂ (fun _ row => row.length = js.length ∧ ∀ c ∈ row, 0 ≤ c.1 ∧ c.1 = c.2) exs rows := by
  intro exs
  induction exs with
  | nil =>
    intro p p' rows _ _ h
    simp only [densityTable, Res.ok.injEq, Prod.mk.injEq] at h
    rw [← h.1]; exact .nil
  | cons ex exs ih =>
    intro p p' rows ht hp h
    rw [densityTable, bind_ok_iff] at h
    obtain ⟨⟨row, q⟩, hb, h⟩ := h
    rw [bind_ok_iff] at h
    obtain ⟨⟨rs, q'⟩, hrs, h⟩ := h
    simp only [Res.ok.injEq, Prod.mk.injEq] at h
    rw [← h.1]
    obtain ⟨d, s, hd, hq, hrow⟩ := densityBin_spec hb
    subst hq
    refine .cons ⟨hrow.length_eq.symm, ?_⟩ (ih { p with spinCut := s } _ _ ht hp hrs)
    have hd0 := levelDensity_pos hm ht hp hd
    clear hb h ih hrs
    induction hrow with
    | nil => intro c hc; cases hc
    | cons hj _ ih2 =>
      obtain ⟨sd, hsd, rfl⟩ := hj
      intro c hc
      rcases List.mem_cons.1 hc with rfl | hc
      · have := spinDistribution_nonneg hsd
        exact ⟨by positivity, rfl⟩
      · exact ih2 c hc

end CGMF.LevDen

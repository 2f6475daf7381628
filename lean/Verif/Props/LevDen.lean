import Verif.Proofs.LevDen

/-!
# Level densities

C80: constant temperature and Fermi gas are connected smoothly and reproduce the number of discrete levels.
C81: the stored densities are positive, equal for both parities, and belong to the nucleus alone.
C82: parameters are found or the process stops; temperatures stay positive.
-/

namespace CGMF.Props

open CGMF.LevDen Real Topology

/-- C80.  Whenever `ldTGconnect` returns for more than two levels, either it reports failure by zeros, or: the
temperature is positive, the matching energy lies inside the search interval, the constant-temperature density
integrates to exactly the number of discrete levels up to the highest of them, and (where the spin cut-off is above its
floors) the inverse temperature is the logarithmic slope of the Fermi gas density at the matching energy. -/
theorem C80_connect {mass lve lvn : ℝ} {p p' : Ldp} (hm : 0 < mass) (hn : 2 < lvn)
    (hlo : max p.pairing (9 / (4 * shellCorrection (lve - p.pairing) p.a p.shell mass)) < 100)
    (h : tgConnect mass lve lvn p = .ok p') :
    (p'.temp = 0 ∧ p'.e0 = 0 ∧ p'.matchE = 0) ∨
    (0 < p'.temp ∧ p.pairing < p'.matchE ∧
      9 / (4 * shellCorrection (lve - p.pairing) p.a p.shell mass) < p'.matchE ∧ p'.matchE < 100 ∧
      (∫ x in (0 : ℝ)..lve, exp ((x - p'.e0) / p'.temp) / p'.temp) = lvn ∧
      ∀ s, 1 / 2 < p'.matchE - p.pairing →
        spinCutoff (p'.matchE - p.pairing)
          (shellCorrection (max lve p'.matchE - p.pairing) p.a p.shell mass) mass p.sigma0 = .ok s → p.sigma0 < s →
        ∃ f : ℝ → ℝ,
          (∀ᶠ v in 𝓝 (p'.matchE - p.pairing),
            (spinCutoff v (shellCorrection (max lve p'.matchE - p.pairing) p.a p.shell mass) mass p.sigma0).bind
              (fermiGas v (shellCorrection (max lve p'.matchE - p.pairing) p.a p.shell mass)) = .ok (f v)) ∧
          HasDerivAt (fun v => log (f v)) (1 / p'.temp) (p'.matchE - p.pairing)) := by
  unfold tgConnect at h
  rw [if_neg (not_le.2 hn)] at h
  dsimp only at h
  split at h
  · cases h
  · rw [bind_ok_iff] at h
    obtain ⟨⟨t, e0, ex⟩, hr, h⟩ := h
    simp only [Res.ok.injEq] at h
    subst h
    rcases tgLoop_spec _ _ _ hlo _ _ _ hr with ⟨rfl, rfl, rfl⟩ | ⟨f, h1, h2⟩
    · exact .inl ⟨rfl, rfl, rfl⟩
    · refine .inr ⟨f.tpos, lt_of_le_of_lt (le_max_left _ _) h1, lt_of_le_of_lt (le_max_right _ _) h1, h2, ?_, ?_⟩
      · dsimp only
        rw [f.shift]
        exact cumulative f.tpos f.lpos (by linarith)
      · intro s hu hs hs0
        dsimp only at hu hs ⊢
        have ha := (spinCutoff_pos hm hs).2
        refine ⟨_, gas_near hu hm hs hs0, ?_⟩
        have hd := log_gas_deriv (u := ex - p.pairing) (by linarith) ha hm
        have hsl := f.slope
        rw [max_sub_sub_right] at hsl
        rw [hsl, one_div_one_div]
        exact hd

/-- C80.  At the matching energy the density read through `ldLevelDensity` agrees with the constant-temperature one to
`1e-6/T` in the logarithm, provided the matching energy is not below the highest discrete level (below it the
connection used another density parameter than `ldLevelDensity` does). -/
theorem C80_continuous_partial {mass lve lvn : ℝ} {p p' : Ldp} (hn : 2 < lvn)
    (hlo : max p.pairing (9 / (4 * shellCorrection (lve - p.pairing) p.a p.shell mass)) < 100)
    (h : tgConnect mass lve lvn p = .ok p') (hok : p'.matchE ≠ 0) (hle : lve ≤ p'.matchE) :
    ∃ ct fg s, constTemp p'.matchE p'.e0 p'.temp = .ok ct ∧ levelDensity p'.matchE mass p' = .ok (fg, s) ∧
      0 < ct ∧ 0 < fg ∧ |log fg - log ct| ≤ 1 / 1000000 / p'.temp := by
  unfold tgConnect at h
  rw [if_neg (not_le.2 hn)] at h
  dsimp only at h
  split at h
  · cases h
  · rw [bind_ok_iff] at h
    obtain ⟨⟨t, e0, ex⟩, hr, h⟩ := h
    simp only [Res.ok.injEq] at h
    subst h
    rcases tgLoop_spec _ _ _ hlo _ _ _ hr with ⟨rfl, rfl, rfl⟩ | ⟨f, h1, h2⟩
    · exact absurd rfl hok
    · obtain ⟨fg, s, q1, q2, q3⟩ := match_density f hok hle
      refine ⟨exp ((ex - e0) / t) / t, fg, s, ?_, q1, div_pos (exp_pos _) f.tpos, q2, q3⟩
      unfold constTemp
      rw [if_neg f.tpos.ne']

/-- C80.  When the systematic temperature is used instead, `ldTextrapolate` either clears the matching energy or
chooses the density parameter so that the two densities differ by at most `1e-6` at the matching energy, which lies
above the highest discrete level. -/
theorem C80_extrapolate {mass lve : ℝ} {p p' : Ldp} (hm : 0 < mass) (hlo : max p.pairing lve < 100)
    (h : tExtrapolate mass lve p = .ok p') :
    p' = { p with matchE := 0 } ∨
      (max p.pairing lve < p'.matchE ∧ p'.matchE < 100 ∧ p'.pairing = p.pairing ∧ p'.temp = p.temp ∧ p'.e0 = p.e0 ∧
        (p'.matchE ≠ 0 → ∃ ct fg s, constTemp p'.matchE p'.e0 p'.temp = .ok ct ∧
          levelDensity p'.matchE mass p' = .ok (fg, s) ∧ |ct - fg| ≤ 1 / 1000000)) :=
  tExtrapolate_spec hm hlo h

/-- C81.  Every stored density is non-negative and the same for both parities, for every spin and bin. -/
theorem C81_densities {mass : ℝ} {js exs : List ℝ} {p p' : Ldp} {rows} (hm : 0 < mass) (ht : 0 < p.temp)
    (hp : p.matchE ≠ 0 → p.pairing < p.matchE) (h : densityTable mass js exs p = .ok (rows, p')) :
    List.Forall₂ (fun _ row => row.length = js.length ∧ ∀ c ∈ row, 0 ≤ c.1 ∧ c.1 = c.2) exs rows :=
  densityTable_rows hm exs p p' rows ht hp h

/-- C81.  The total density is strictly positive at every energy. -/
theorem C81_positive {ex mass d s : ℝ} {p : Ldp} (hm : 0 < mass) (ht : 0 < p.temp)
    (hp : p.matchE ≠ 0 → p.pairing < p.matchE) (h : levelDensity ex mass p = .ok (d, s)) : 0 < d :=
  levelDensity_pos hm ht hp h

/-- C81.  With a matching energy the table does not depend on the spin cut-off an earlier nucleus left behind. -/
theorem C81_history_partial {mass : ℝ} {js exs : List ℝ} {p : Ldp} (h : p.matchE ≠ 0) (hne : exs ≠ []) (c : ℝ) :
    densityTable mass js exs { p with spinCut := c } = densityTable mass js exs p :=
  densityTable_fresh h exs c hne

/-- C81.  Without a matching energy it does: two structures that differ only in the left-over cut-off give different
densities for the same nucleus. -/
theorem C81_stale : ∃ (p : Ldp) (c : ℝ) (r r' : List (List (ℝ × ℝ)) × Ldp), p.matchE = 0 ∧ 0 < p.temp ∧ 0 < p.sigma0 ∧
    densityTable 100 [0] [1] p = .ok r ∧ densityTable 100 [0] [1] { p with spinCut := c } = .ok r' ∧ r.1 ≠ r'.1 := by
  have key : ∀ c : ℝ, 1 ≤ c → densityTable 100 [0] [1] ⟨0, 1, 1, 0, 10, 1, c, 1⟩ =
      .ok ([[(exp 1 * (if (1 / 2) * exp (-(1 / 2) * (1 / 2) / (2 * c * c)) / (c * c) < 1 / 10 ^ 10 then 0
        else (1 / 2) * exp (-(1 / 2) * (1 / 2) / (2 * c * c)) / (c * c)) * (1 / 2),
        exp 1 * (if (1 / 2) * exp (-(1 / 2) * (1 / 2) / (2 * c * c)) / (c * c) < 1 / 10 ^ 10 then 0
        else (1 / 2) * exp (-(1 / 2) * (1 / 2) / (2 * c * c)) / (c * c)) * (1 - 1 / 2))]],
        ⟨0, 1, 1, 0, 10, 1, c, 1⟩) := by
    intro c hc
    simp only [densityTable, densityBin, levelDensity, constTemp, if_true, Res.bind, List.foldr, spinDistribution,
      max_eq_left hc, parityDistribution, one_ne_zero, if_false]
    rw [if_neg (by linarith)]
    norm_num
  refine ⟨⟨0, 1, 1, 0, 10, 1, 1, 1⟩, 2, _, _, rfl, one_pos, one_pos, key 1 le_rfl, key 2 one_le_two, ?_⟩
  have e1 : (7 / 8 : ℝ) ≤ exp (-(1 / 2) * (1 / 2) / (2 * 1 * 1)) := by
    have := add_one_le_exp (-(1 / 2) * (1 / 2) / (2 * 1 * 1) : ℝ)
    norm_num at this ⊢; linarith
  have e2 : exp (-(1 / 2) * (1 / 2) / (2 * 2 * 2)) ≤ (1 : ℝ) := exp_le_one_iff.2 (by norm_num)
  have e3 : (31 / 32 : ℝ) ≤ exp (-(1 / 2) * (1 / 2) / (2 * 2 * 2)) := by
    have := add_one_le_exp (-(1 / 2) * (1 / 2) / (2 * 2 * 2) : ℝ)
    norm_num at this ⊢; linarith
  intro hc
  simp only [List.cons.injEq, Prod.mk.injEq, and_true] at hc
  have h1 := hc.1
  generalize exp (-(1 / 2) * (1 / 2) / (2 * 1 * 1)) = x at h1 e1
  generalize exp (-(1 / 2) * (1 / 2) / (2 * 2 * 2)) = y at h1 e2 e3
  rw [if_neg (by norm_num; linarith), if_neg (by norm_num; linarith)] at h1
  have h2 := mul_right_cancel₀ (by norm_num : (1 / 2 : ℝ) ≠ 0) h1
  have h3 := mul_left_cancel₀ (exp_pos 1).ne' h2
  linarith

/-- C81.  Scaling the spin distribution of the initial population: with a matching energy the scale is applied once
however often the nucleus is initialised; without one it accumulates. -/
theorem C81_scale {ex mass sf : ℝ} {p p1 p2 : Ldp} (hs : 0 < sf) (h1 : popinitCut ex mass sf p = .ok p1)
    (h2 : popinitCut ex mass sf p1 = .ok p2) :
    (p.matchE ≠ 0 → p2 = p1) ∧ (p.matchE = 0 → p2.spinCut = p.spinCut * sf * sf) := by
  unfold popinitCut at h1 h2
  rw [bind_ok_iff] at h1 h2
  obtain ⟨⟨d, s⟩, a1, h1⟩ := h1
  obtain ⟨⟨d', s'⟩, a2, h2⟩ := h2
  simp only [if_pos hs, Res.ok.injEq] at h1 h2
  subst h1
  subst h2
  constructor
  · intro hm
    rw [levelDensity_fresh _ hm, a1] at a2
    simp only [Res.ok.injEq, Prod.mk.injEq] at a2
    rw [a2.2]
  · intro hm
    unfold levelDensity at a1 a2
    simp only [if_pos hm] at a1 a2
    rw [bind_ok_iff] at a1 a2
    obtain ⟨x, _, b1⟩ := a1
    obtain ⟨y, _, b2⟩ := a2
    simp only [Res.ok.injEq, Prod.mk.injEq] at b1 b2
    dsimp only
    rw [← b2.2, ← b1.2]

/-- C81.  A spin weight is zero or at least the cut. -/
theorem C81_spin_cut {j sc sc0 r : ℝ} (h : spinDistribution j sc sc0 = .ok r) : r = 0 ∨ 1 / 10 ^ 10 ≤ r :=
  spinDistribution_spec h

/-- C82.  A nucleus whose row has no shell correction (absent from the file, or exactly zero in it) stops the process;
every other keeps its own pairing energy and shell correction. -/
theorem C82_found (row : KckRow) (mass : ℝ) (spins : List ℝ) (lve : ℝ) (old : Ldp) :
    (row.shell = 0 → setup row mass spins lve old = .exit) ∧
    ∀ p', setup row mass spins lve old = .ok p' → row.shell ≠ 0 ∧ p'.pairing = row.pairing ∧ p'.shell = row.shell := by
  constructor
  · intro h
    unfold setup getKck
    rw [if_pos h]; rfl
  · intro p' h
    unfold setup at h
    rw [bind_ok_iff] at h
    obtain ⟨p, hg, h⟩ := h
    unfold getKck at hg
    split at hg
    · cases hg
    · rename_i hne
      simp only [Res.ok.injEq] at hg
      dsimp only at h
      rw [bind_ok_iff] at h
      obtain ⟨q, hq, h⟩ := h
      have hq' : q.pairing = row.pairing ∧ q.shell = row.shell := by
        unfold tgConnect at hq
        split at hq
        · simp only [Res.ok.injEq] at hq
          rw [← hq, ← hg]; exact ⟨rfl, rfl⟩
        · dsimp only at hq
          split at hq
          · cases hq
          · rw [bind_ok_iff] at hq
            obtain ⟨r, _, hq⟩ := hq
            simp only [Res.ok.injEq] at hq
            rw [← hq, ← hg]; exact ⟨rfl, rfl⟩
      refine ⟨hne, ?_⟩
      split at h
      · rw [bind_ok_iff] at h
        obtain ⟨t, _, h⟩ := h
        rw [bind_ok_iff] at h
        obtain ⟨e0, _, h⟩ := h
        unfold tExtrapolate at h
        rw [bind_ok_iff] at h
        obtain ⟨r, _, h⟩ := h
        rcases r with _ | ⟨a, ux⟩
        · simp only [Res.ok.injEq] at h
          rw [← h]; exact hq'
        · dsimp only at h
          split at h
          · split at h
            · cases h
            · simp only [Res.ok.injEq] at h
              rw [← h]; exact hq'
          · simp only [Res.ok.injEq] at h
            rw [← h]; exact hq'
      · simp only [Res.ok.injEq] at h
        rw [← h]; exact hq'

/-- C82.  After the set-up the temperature is positive: from the connection, or from the systematics when the shell
correction is below 10 MeV; with at most two levels and a matching energy in the file it is the file's. -/
theorem C82_temperature {row : KckRow} {mass lve : ℝ} {spins : List ℝ} {old p' : Ldp} (hm : 0 < mass)
    (hdw : row.shell < 10)
    (hlo : max row.pairing (9 / (4 * shellCorrection (lve - row.pairing) (asymptoticA mass) row.shell mass)) < 100)
    (hf : spins.length ≤ 2 → row.matchE ≠ 0 → 0 < row.temp)
    (h : setup row mass spins lve old = .ok p') : 0 < p'.temp := by
  have hsh : p'.shell = row.shell := ((C82_found row mass spins lve old).2 p' h).2.2
  unfold setup at h
  rw [bind_ok_iff] at h
  obtain ⟨p, hg, h⟩ := h
  unfold getKck at hg
  split at hg
  · cases hg
  · simp only [Res.ok.injEq] at hg
    subst hg
    dsimp only at h
    generalize (if levelSpinCutoff spins = 0 then √(kckSpinCutoff mass) else levelSpinCutoff spins) = sg at h
    rw [bind_ok_iff] at h
    obtain ⟨q, hq, h⟩ := h
    have hqt : q.matchE ≠ 0 → 0 < q.temp := by
      intro hne
      by_cases hl : (spins.length : ℝ) ≤ 2
      · unfold tgConnect at hq
        rw [if_pos hl] at hq
        simp only [Res.ok.injEq] at hq
        subst hq
        exact hf (by exact_mod_cast hl) hne
      · rcases C80_connect hm (not_le.1 hl) hlo hq with hz | hz
        · exact absurd hz.2.2 hne
        · exact hz.1
    split at h
    · rw [bind_ok_iff] at h
      obtain ⟨t, ht, h⟩ := h
      rw [bind_ok_iff] at h
      obtain ⟨e0, _, h⟩ := h
      have hqs : q.shell = row.shell := by
        unfold tExtrapolate at h
        rw [bind_ok_iff] at h
        obtain ⟨r, _, h⟩ := h
        rcases r with _ | ⟨a, ux⟩
        · simp only [Res.ok.injEq] at h
          rw [← h] at hsh; exact hsh
        · dsimp only at h
          split at h
          · split at h
            · cases h
            · simp only [Res.ok.injEq] at h
              rw [← h] at hsh; exact hsh
          · simp only [Res.ok.injEq] at h
            rw [← h] at hsh; exact hsh
      have ht0 : 0 < t := by
        unfold kckTemperature at ht
        rw [hqs] at ht
        rw [if_neg (by linarith)] at ht
        simp only [Res.ok.injEq] at ht
        rw [← ht]
        have h1 : 0 < mass ^ (-(893714 / 1000000) : ℝ) := rpow_pos_of_pos hm _
        have h2 : 0 < √(1 - 1 / 10 * row.shell) := sqrt_pos.2 (by linarith)
        positivity
      unfold tExtrapolate at h
      rw [bind_ok_iff] at h
      obtain ⟨r, _, h⟩ := h
      rcases r with _ | ⟨a, ux⟩
      · simp only [Res.ok.injEq] at h
        rw [← h]; exact ht0
      · dsimp only at h
        split at h
        · split at h
          · cases h
          · simp only [Res.ok.injEq] at h
            rw [← h]; exact ht0
        · simp only [Res.ok.injEq] at h
          rw [← h]; exact ht0
    · rename_i hne
      simp only [Res.ok.injEq] at h
      rw [← h]; exact hqt hne

/-! ## Concrete cases -/

namespace LevDenDemo

/-- A structure whose first trial energy, 75 MeV, has `a U = 25`. -/
noncomputable def start : Ldp := ⟨0, 0, 0, 0, 1, 50, 0, 0⟩

noncomputable def cut : ℝ := max (√(6945 / 1000000 * √(25 / 1) * (1 : ℝ) ^ (5 / 3 : ℝ))) 0

noncomputable def gas : ℝ :=
  1 / (12 * √2) * exp (2 * √(1 * 25)) / ((1 : ℝ) ^ (1 / 4 : ℝ) * (25 : ℝ) ^ (5 / 4 : ℝ)) / cut

noncomputable def levels : ℝ := (exp (75 / (50 / 7)) - 1) / exp ((75 - 50 / 7 * log (50 / 7 * gas)) / (50 / 7))

theorem sqrt25 : √(25 : ℝ) = 5 := by rw [show (25 : ℝ) = 5 ^ 2 by norm_num]; exact sqrt_sq (by norm_num)

theorem cut_bounds : 0 < cut ∧ cut ≤ 1 := by
  unfold cut
  rw [div_one, sqrt25, one_rpow]
  constructor
  · exact lt_max_of_lt_left (sqrt_pos.2 (by norm_num))
  · refine max_le ?_ zero_le_one
    rw [sqrt_le_left zero_le_one]
    norm_num

theorem gas_large : 4 < 50 / 7 * gas := by
  obtain ⟨h0, h1⟩ := cut_bounds
  have e10 : (1024 : ℝ) ≤ exp (2 * √(1 * 25)) := by
    rw [one_mul, sqrt25]
    have h2 : (2 : ℝ) ≤ exp 1 := by have := add_one_le_exp (1 : ℝ); linarith
    have h3 : exp (2 * 5 : ℝ) = exp 1 ^ 10 := by rw [← exp_nat_mul]; norm_num
    rw [h3]
    calc (1024 : ℝ) = 2 ^ 10 := by norm_num
      _ ≤ exp 1 ^ 10 := pow_le_pow_left₀ (by norm_num) h2 10
  have s2 : √(2 : ℝ) ≤ 3 / 2 := by rw [sqrt_le_left (by norm_num)]; norm_num
  have s20 : 0 < √(2 : ℝ) := sqrt_pos.2 (by norm_num)
  have p25 : (25 : ℝ) ^ (5 / 4 : ℝ) ≤ 125 / 2 := by
    have : (25 : ℝ) ^ (5 / 4 : ℝ) = 25 * √5 := by
      rw [show (5 / 4 : ℝ) = 1 + 1 / 4 by norm_num, rpow_add (by norm_num), rpow_one]
      congr 1
      rw [show (25 : ℝ) = 5 ^ (2 : ℝ) by norm_num, ← rpow_mul (by norm_num), sqrt_eq_rpow]
      norm_num
    rw [this]
    have : √(5 : ℝ) ≤ 5 / 2 := by rw [sqrt_le_left (by norm_num)]; norm_num
    linarith
  have p250 : 0 < (25 : ℝ) ^ (5 / 4 : ℝ) := rpow_pos_of_pos (by norm_num) _
  unfold gas
  rw [one_rpow, one_mul ((25 : ℝ) ^ (5 / 4 : ℝ))]
  generalize exp (2 * √(1 * 25)) = E at *
  generalize √(2 : ℝ) = S at *
  generalize (25 : ℝ) ^ (5 / 4 : ℝ) = P at *
  generalize cut = C at *
  have hden : 12 * S * P * C ≤ 12 * (3 / 2) * (125 / 2) * 1 := by gcongr
  have hpos : 0 < 12 * S * P * C := by positivity
  have : 50 / 7 * (1 / (12 * S) * E / P / C) = 50 / 7 * E / (12 * S * P * C) := by field_simp
  rw [this, lt_div_iff₀ hpos]
  nlinarith

theorem levels_many : 2 < levels := by
  have hg := gas_large
  unfold levels
  have h0 : 0 < 50 / 7 * gas := by linarith
  have e : (75 - 50 / 7 * log (50 / 7 * gas)) / (50 / 7) = 75 / (50 / 7) - log (50 / 7 * gas) := by field_simp
  rw [e, exp_sub, exp_log h0]
  have hx : (2 : ℝ) ≤ exp (75 / (50 / 7)) := by
    have := add_one_le_exp (75 / (50 / 7) : ℝ); norm_num at this ⊢; linarith
  generalize exp (75 / (50 / 7)) = x at hx
  rw [div_div_eq_mul_div, lt_div_iff₀ (by linarith)]
  nlinarith

theorem shell0 (u : ℝ) : shellCorrection u 1 0 1 = 1 := by unfold shellCorrection; simp

/-- The connection succeeds at the first trial energy. -/
theorem connected : tgConnect 1 75 levels start =
    .ok { start with temp := 50 / 7, e0 := 75 - 50 / 7 * log (50 / 7 * gas), matchE := 75 } := by
  have hc := cut_bounds
  have hg := gas_large
  have hex : (max (50 : ℝ) (9 / (4 * 1)) + 100) / 2 = 75 := by rw [max_eq_left (by norm_num)]; norm_num
  have ht : tgTemp 1 75 start 75 = .ok (50 / 7, 1) := by
    unfold tgTemp start
    dsimp only
    rw [shell0]
    have h5 : √(1 / (75 - 50) : ℝ) = 1 / 5 := by
      rw [show (1 / (75 - 50) : ℝ) = (1 / 5) ^ 2 by norm_num]; exact sqrt_sq (by norm_num)
    rw [h5, if_neg (by norm_num), if_neg (by norm_num)]
    norm_num
  have hs : spinCutoff (75 - 50) 1 1 0 = .ok cut := by
    unfold spinCutoff cut
    rw [if_neg (by norm_num)]
    dsimp only
    rw [if_neg (by norm_num)]
    norm_num
  have hf : fermiGas (75 - 50) 1 cut = .ok gas := by
    unfold fermiGas gas
    rw [if_neg (by norm_num), if_neg (by push Not; exact ⟨by norm_num, by norm_num, hc.1.ne'⟩)]
    norm_num
  have hx : 0 < exp (75 / (50 / 7)) - (1 : ℝ) := by
    have := add_one_le_exp (75 / (50 / 7) : ℝ); norm_num at this ⊢
  have hsh : tgShifts 1 75 levels start 75 (50 / 7) 1 =
      .ok (75 - 50 / 7 * log (50 / 7 * gas), 75 - 50 / 7 * log (50 / 7 * gas)) := by
    unfold tgShifts start
    dsimp only
    rw [if_neg (by norm_num), hs]
    simp only [Res.bind]
    rw [hf]
    simp only
    rw [if_neg (by linarith)]
    have : (exp (75 / (50 / 7)) - 1) / levels = exp ((75 - 50 / 7 * log (50 / 7 * gas)) / (50 / 7)) := by
      unfold levels
      rw [div_div_cancel₀ hx.ne']
    rw [this, log_exp]
    congr 2
    field_simp
  unfold tgConnect
  rw [if_neg (not_le.2 levels_many)]
  show (if shellCorrection (75 - start.pairing) start.a start.shell 1 = 0 then Res.ub else _) = _
  have e1 : shellCorrection (75 - start.pairing) start.a start.shell 1 = 1 := shell0 _
  rw [e1, if_neg one_ne_zero, tgLoop]
  have e2 : (max start.pairing (9 / (4 * 1)) + 100) / 2 = 75 := hex
  simp only [e2, ht, Res.bind, hsh, sub_self, abs_zero]
  rw [if_neg (by norm_num), if_neg (by norm_num)]

/-- C80 in that case: density continuous at 75 MeV and the levels counted. -/
example : ∃ p', tgConnect 1 75 levels start = .ok p' ∧ p'.matchE ≠ 0 ∧ 75 ≤ p'.matchE ∧
    (∫ x in (0 : ℝ)..75, exp ((x - p'.e0) / p'.temp) / p'.temp) = levels ∧
    ∃ ct fg s, constTemp p'.matchE p'.e0 p'.temp = .ok ct ∧ levelDensity p'.matchE 1 p' = .ok (fg, s) ∧
      0 < ct ∧ 0 < fg ∧ |log fg - log ct| ≤ 1 / 1000000 / p'.temp := by
  have hlo : max start.pairing (9 / (4 * shellCorrection (75 - start.pairing) start.a start.shell 1)) < 100 := by
    have e1 : shellCorrection (75 - start.pairing) start.a start.shell 1 = 1 := shell0 _
    rw [e1]
    show max (50 : ℝ) (9 / (4 * 1)) < 100
    rw [max_eq_left (by norm_num)]; norm_num
  refine ⟨_, connected, by norm_num, le_rfl, ?_,
    C80_continuous_partial levels_many hlo connected (by norm_num) le_rfl⟩
  rcases C80_connect one_pos levels_many hlo connected with h | h
  · exact absurd h.1 (by norm_num)
  · exact h.2.2.2.2.1

/-- C81: a nucleus without matching energy, two bins and two spins. -/
example : ∃ r, densityTable 100 [0, 1] [1, 2] ⟨0, 1, 1, 0, 10, 1, 3, 4⟩ = .ok r ∧ r.1.length = 2 := by
  simp only [densityTable, densityBin, levelDensity, constTemp, if_true, Res.bind, List.foldr, spinDistribution,
    one_ne_zero, if_false]
  norm_num

/-- C81: initialising twice with scale 2 and no matching energy quadruples the cut-off. -/
example : ∃ p1 p2, popinitCut 1 100 2 ⟨0, 1, 1, 0, 10, 1, 3, 4⟩ = .ok p1 ∧ popinitCut 1 100 2 p1 = .ok p2 ∧
    p2.spinCut = 12 := by
  refine ⟨⟨0, 1, 1, 0, 10, 1, 6, 4⟩, ⟨0, 1, 1, 0, 10, 1, 12, 4⟩, ?_, ?_, rfl⟩ <;>
    · unfold popinitCut levelDensity constTemp
      norm_num [Res.bind]

/-- C82: a nucleus with two levels and file parameters. -/
example : ∃ p', setup ⟨1, 2, 5, 10, 1, 0⟩ 100 [0, 2] 1 ⟨0, 0, 0, 0, 0, 0, 0, 0⟩ = .ok p' ∧ p'.temp = 1 := by
  unfold setup getKck tgConnect
  norm_num [Res.bind]

end LevDenDemo

end CGMF.Props

import Verif.Model.ExcitonRun
import Verif.Proofs.ExcitonReal
import Verif.Proofs.Grid
import Verif.Tactics

/-! The composed exciton calculation: sign and positivity of its pieces, over the reals. -/

namespace CGMF.Exc

open CGMF.ExcSpec CGMF.Grid

theorem val_ok {K : Type} [Field K] {r : Res K} {v : K} (h : r = .ok v) : val r = v := by rw [h]; rfl

/-! ### Parameters -/

section params

variable {z a : Int}

theorem gz_pos (F : Fns ℝ) (s : ℝ → ℝ) (e : ℝ) (hz : 1 ≤ z) : 0 < (spdOf F s e z a).gz := by
  have : (0 : ℝ) < z := by exact_mod_cast (by omega : 0 < z)
  show 0 < (z : ℝ) / (192 / 10)
  positivity

theorem gn_pos (F : Fns ℝ) (s : ℝ → ℝ) (e : ℝ) (hn : z < a) : 0 < (spdOf F s e z a).gn := by
  have : (0 : ℝ) < ((a - z : Int) : ℝ) := by exact_mod_cast (by omega : 0 < a - z)
  show 0 < ((a - z : Int) : ℝ) / (192 / 10)
  positivity

theorem pairingDelta_cases (s : ℝ → ℝ) (z a : Int) :
    pairingDelta s z a = 0 ∨ ∃ c : ℝ, 1 ≤ c ∧ c ≤ 2 ∧ pairingDelta s z a = c * 12 / s a := by
  unfold pairingDelta
  simp only []
  split
  · left; simp
  · split
    · right; exact ⟨2, by norm_num, le_rfl, by push_cast; rfl⟩
    · right; exact ⟨1, le_rfl, by norm_num, by push_cast; rfl⟩

theorem pairing_nonneg (F : Fns ℝ) (e : ℝ) : 0 ≤ (spdOf F Real.sqrt e z a).pairing := by
  show 0 ≤ pairingDelta Real.sqrt z a
  rcases pairingDelta_cases Real.sqrt z a with h | ⟨c, h1, _, h⟩
  · rw [h]
  · rw [h]
    have := Real.sqrt_nonneg (a : ℝ)
    positivity

/-- The critical exciton number is at least one half. -/
theorem critical_big (F : Fns ℝ) (e : ℝ) (hz : 1 ≤ z) (hn : z < a) (h : (spdOf F Real.sqrt e z a).pairing ≠ 0) :
    1 / 2 ≤ critical Real.sqrt (spdOf F Real.sqrt e z a) := by
  have ha : (1 : ℝ) ≤ a := by exact_mod_cast (by omega : 1 ≤ a)
  have hg : (spdOf F Real.sqrt e z a).gz + (spdOf F Real.sqrt e z a).gn = (a : ℝ) / (192 / 10) := by
    show (z : ℝ) / (192 / 10) + ((a - z : Int) : ℝ) / (192 / 10) = _
    push_cast; ring
  unfold critical
  rw [hg]
  have hd : (spdOf F Real.sqrt e z a).pairing = pairingDelta Real.sqrt z a := rfl
  rw [hd] at h ⊢
  rcases pairingDelta_cases Real.sqrt z a with h' | ⟨c, h1, _, h'⟩
  · exact absurd h' h
  · rw [h']
    have hs1 : 1 ≤ Real.sqrt (a : ℝ) := by rw [Real.one_le_sqrt]; exact ha
    have hss : Real.sqrt (a : ℝ) * Real.sqrt a = a := Real.mul_self_sqrt (by linarith)
    have hgpos : (0 : ℝ) < (a : ℝ) / (192 / 10) := by positivity
    have key : 1 / 2 ≤ (a : ℝ) / (192 / 10) * Real.sqrt (c * 12 / Real.sqrt a / ((a : ℝ) / (192 / 10))) := by
      rw [← div_le_iff₀' hgpos]
      apply Real.le_sqrt_of_sq_le
      rw [div_div_eq_mul_div, div_pow, div_le_div_iff₀ (by positivity) (by positivity)]
      have hsp : 0 < Real.sqrt (a : ℝ) := by linarith
      have e1 : c * 12 / Real.sqrt (a : ℝ) * (a : ℝ) ^ 2 = c * 12 * (a * (a / Real.sqrt a)) := by field_simp
      have e2 : (a : ℝ) / Real.sqrt a = Real.sqrt a := by
        rw [div_eq_iff hsp.ne']; exact hss.symm
      rw [e1, e2]
      have : (a : ℝ) ≤ a * Real.sqrt a := by nlinarith
      nlinarith
    nlinarith

/-- The pairing correction lies between zero and the pairing energy. -/
theorem pairing_range (e : ℝ) (hz : 1 ≤ z) (hn : z < a) (n : Int) (x : ℝ) (h1 : 1 ≤ n) (h2 : n ≤ 31) (hx : 0 < x) :
    0 ≤ pairingCorr realFns (critical Real.sqrt (spdOf realFns Real.sqrt e z a)) n x (spdOf realFns Real.sqrt e z a) ∧
    pairingCorr realFns (critical Real.sqrt (spdOf realFns Real.sqrt e z a)) n x (spdOf realFns Real.sqrt e z a)
      ≤ pairingDelta Real.sqrt z a := by
  by_cases h : (spdOf realFns Real.sqrt e z a).pairing = 0
  · have : pairingDelta Real.sqrt z a = 0 := h
    rw [this]
    unfold pairingCorr
    rw [if_pos h]
    exact ⟨le_rfl, le_rfl⟩
  · have hc := critical_big realFns e hz hn h
    have : (n : ℝ) ≤ 31 := by exact_mod_cast h2
    exact pairingCorr_range _ n (by omega) (by linarith) (by linarith) x hx _ (pairing_nonneg realFns e)

theorem well_range (e : ℝ) (he : 0 < e) (ha : 1 ≤ a) :
    0 < (spdOf realFns Real.sqrt e z a).wellDepth ∧ (spdOf realFns Real.sqrt e z a).wellDepth < 38 := by
  show 0 < 12 + 26 * e ^ (4 : ℝ) / (e ^ (4 : ℝ) + (245 * (a : ℝ) ^ (-(1 / 3) : ℝ)) ^ (4 : ℝ)) ∧
    12 + 26 * e ^ (4 : ℝ) / (e ^ (4 : ℝ) + (245 * (a : ℝ) ^ (-(1 / 3) : ℝ)) ^ (4 : ℝ)) < 38
  have h1 : 0 < e ^ (4 : ℝ) := Real.rpow_pos_of_pos he _
  have ha' : (0 : ℝ) < a := by exact_mod_cast (by omega : 0 < a)
  have h2 : 0 < (245 * (a : ℝ) ^ (-(1 / 3) : ℝ)) ^ (4 : ℝ) := by
    have := Real.rpow_pos_of_pos ha' (-(1 / 3) : ℝ)
    positivity
  generalize e ^ (4 : ℝ) = u at *
  generalize (245 * (a : ℝ) ^ (-(1 / 3) : ℝ)) ^ (4 : ℝ) = v at *
  constructor
  · positivity
  · have : 26 * u / (u + v) < 26 := by rw [div_lt_iff₀ (by positivity)]; linarith
    linarith

end params

/-! ### Positivity of the well function and of the state density for few excitons -/

theorem wellSum_one (n : Int) (hn : 2 ≤ n) (ex v : ℝ) (hex : 0 < ex) (hv : 0 ≤ v) :
    ∃ x, wellSum realFns n 1 ex v (List.range' 1 1) 1 = .ok x ∧ 0 ≤ x ∧ (0 < v → 0 < x) := by
  have hl : List.range' 1 1 = [1] := rfl
  rw [hl]
  unfold wellSum wellTerm
  by_cases c : ex - ((1 : Nat) : ℝ) * v > 0
  · have f1 : fact (K := ℝ) ((1 : Nat) : Int) = .ok 0 := fact_one
    have f2 : fact (K := ℝ) (((1 : Nat) : Int) - ((1 : Nat) : Int)) = .ok 0 := fact_zero
    rw [if_pos c, f1]
    simp only [Res.bind, f2, wellSum]
    refine ⟨_, rfl, ?_⟩
    have hp0 : 0 ≤ 1 - ((1 : Nat) : ℝ) * v / ex := by
      rw [sub_nonneg, div_le_one hex]; push_cast at c ⊢; linarith
    have hp1 : 1 - ((1 : Nat) : ℝ) * v / ex ≤ 1 := by
      have : 0 ≤ ((1 : Nat) : ℝ) * v / ex := by positivity
      linarith
    have hn' : (0 : ℝ) < (n : ℝ) - 1 := by
      have : (2 : ℝ) ≤ n := by exact_mod_cast hn
      linarith
    have e0 : realFns.exp (0 - 0 - 0) = 1 := by show Real.exp _ = 1; simp
    have hif : (if (1 : Nat) % 2 = 0 then (1 : ℝ) else -1) = -1 := by norm_num
    rw [e0, hif]
    have hpow : realFns.pow (1 - ((1 : Nat) : ℝ) * v / ex) ((n : ℝ) - 1) ≤ 1 := Real.rpow_le_one hp0 hp1 hn'.le
    constructor
    · linarith
    · intro hv'
      have : 1 - ((1 : Nat) : ℝ) * v / ex < 1 := by
        have : 0 < ((1 : Nat) : ℝ) * v / ex := by positivity
        linarith
      have : realFns.pow (1 - ((1 : Nat) : ℝ) * v / ex) ((n : ℝ) - 1) < 1 := Real.rpow_lt_one hp0 this hn'
      linarith
  · rw [if_neg c]
    simp only [Res.bind, wellSum]
    exact ⟨_, rfl, by norm_num, fun _ => by norm_num⟩

/-- At most one hole, and not one particle-hole pair alone. -/
def Few (n : Int) (h : Nat) : Prop := h = 0 ∨ (h = 1 ∧ 2 ≤ n)

theorem wellSum_few {n : Int} {h : Nat} (hf : Few n h) (ex v : ℝ) (hex : 0 < ex) (hv : 0 ≤ v) :
    ∃ x, wellSum realFns n h ex v (List.range' 1 h) 1 = .ok x ∧ 0 ≤ x ∧ (0 < v → 0 < x) := by
  rcases hf with rfl | ⟨rfl, hn⟩
  · exact ⟨1, rfl, by norm_num, fun _ => by norm_num⟩
  · exact wellSum_one n hn ex v hex hv

theorem wellSmear_few {n : Int} {h : Nat} (hf : Few n h) (ex v w : ℝ) (hex : 0 < ex) (hv : 0 < v) (hv' : v < 38) :
    ∀ (ps : List Int) (qs xs : ℝ), 0 ≤ qs → 0 ≤ xs →
      ∃ q x, wellSmear realFns n h ex v w ps qs xs = .ok (q, x) ∧ qs ≤ q ∧ xs ≤ x ∧ ((0 : Int) ∈ ps → 0 < q ∧ 0 < x) := by
  intro ps
  induction ps with
  | nil => intro qs xs h1 h2; exact ⟨qs, xs, rfl, le_rfl, le_rfl, by simp⟩
  | cons p ps ih =>
    intro qs xs h1 h2
    unfold wellSmear
    simp only []
    by_cases c : v + (p : ℝ) * w < 0 ∨ 38 < v + (p : ℝ) * w
    · rw [if_pos c]
      obtain ⟨q, x, e, g1, g2, g3⟩ := ih qs xs h1 h2
      refine ⟨q, x, e, g1, g2, fun hm => g3 ?_⟩
      rcases List.mem_cons.1 hm with h0 | h0
      · exfalso
        rw [← h0] at c
        simp at c
        rcases c with c | c <;> linarith
      · exact h0
    · rw [if_neg c]
      rw [not_or, not_lt, not_lt] at c
      obtain ⟨x1, e1, y1, y2⟩ := wellSum_few hf ex (v + (p : ℝ) * w) hex c.1
      rw [e1]
      simp only [Res.bind]
      have hq : 0 < 1 / (1 + realFns.exp ((v - (v + (p : ℝ) * w)) / w)) / (1 + realFns.exp ((v + (p : ℝ) * w - v) / w)) := by
        have a1 : 0 < realFns.exp ((v - (v + (p : ℝ) * w)) / w) := Real.exp_pos _
        have a2 : 0 < realFns.exp ((v + (p : ℝ) * w - v) / w) := Real.exp_pos _
        positivity
      generalize 1 / (1 + realFns.exp ((v - (v + (p : ℝ) * w)) / w)) / (1 + realFns.exp ((v + (p : ℝ) * w - v) / w)) = q0 at hq
      have hm := mul_nonneg hq.le y1
      obtain ⟨q, x, e, g1, g2, g3⟩ := ih (qs + q0) (xs + q0 * x1) (by linarith) (by linarith)
      refine ⟨q, x, e, by linarith, by linarith, ?_⟩
      intro hm'
      rcases List.mem_cons.1 hm' with h0 | h0
      · have : 0 < x1 := y2 (by rw [← h0]; simpa using hv)
        have := mul_pos hq this
        exact ⟨by linarith, by linarith⟩
      · exact g3 h0

theorem finiteWell_few {n : Int} {h : Nat} (hf : Few n h) (ex v : ℝ) (hex : 0 < ex) (hv : 0 < v) (hv' : v < 38) :
    ∃ x, finiteWell realFns n h ex v = .ok x ∧ 0 < x := by
  have hh : ¬ h > 1 := by rcases hf with h0 | ⟨h0, _⟩ <;> omega
  unfold finiteWell
  simp only [if_neg hh]
  by_cases c : v < 38 - 1 / 2
  · rw [if_pos c, if_neg (by rcases hf with h0 | ⟨h0, _⟩ <;> omega)]
    obtain ⟨q, x, e, _, _, g⟩ := wellSmear_few hf ex v (v * (38 - v) / (2 * 38)) hex hv hv' [-4, -3, -2, -1, 0, 1, 2, 3, 4] 0 0 le_rfl le_rfl
    obtain ⟨g1, g2⟩ := g (by decide)
    rw [e]
    simp only [Res.bind]
    refine ⟨_, rfl, ?_⟩
    rw [if_pos g1]
    have : 0 < x / q := div_pos g2 g1
    rw [if_neg (by linarith)]
    exact this
  · rw [if_neg c]
    by_cases c1 : v < ex
    · rw [if_pos c1]
      obtain ⟨x, e, _, g⟩ := wellSum_few hf ex v hex hv.le
      exact ⟨x, e, g hv⟩
    · rw [if_neg c1]; exact ⟨1, rfl, by norm_num⟩

/-- A configuration with at most one hole has a positive state density above pairing and Pauli energy. -/
theorem stateDensity_pos (pc : Int → ℝ → ℝ) (spd : SPdens ℝ) (x : ℝ) (e : Exconf) (he : InTable e)
    (h1 : 0 ≤ e.zp) (h2 : 0 ≤ e.zh) (h3 : 0 ≤ e.np) (h4 : 0 ≤ e.nh) (hne : e.zp + e.np + (e.zh + e.nh) ≠ 0)
    (hf : Few (e.zp + e.np + (e.zh + e.nh)) (e.zh + e.nh).toNat) (hz : 0 < spd.gz) (hn : 0 < spd.gn)
    (hv : 0 < spd.wellDepth) (hv' : spd.wellDepth < 38) (hx : 0 < x)
    (hp : pauli spd.gz spd.gn e < x - pc (e.zp + e.np + (e.zh + e.nh)) x) :
    ∃ v, stateDensity realFns pc spd x e = .ok v ∧ 0 < v := by
  obtain ⟨a1, a2, a3, a4⟩ := he
  have hpn := pauli_nonneg hz hn e
  obtain ⟨f1, e1⟩ := fact_ok (K := ℝ) e.zp h1 (by omega)
  obtain ⟨f2, e2⟩ := fact_ok (K := ℝ) e.zh h2 (by omega)
  obtain ⟨f3, e3⟩ := fact_ok (K := ℝ) e.np h3 (by omega)
  obtain ⟨f4, e4⟩ := fact_ok (K := ℝ) e.nh h4 (by omega)
  obtain ⟨f5, e5⟩ := fact_ok (K := ℝ) (e.zp + e.np + (e.zh + e.nh) - 1) (by omega) (by omega)
  obtain ⟨fw, e6, hfw⟩ := finiteWell_few hf (x - pc (e.zp + e.np + (e.zh + e.nh)) x) spd.wellDepth (by linarith) hv hv'
  unfold stateDensity
  simp only []
  rw [if_neg hne, if_neg (by omega), if_neg (not_le.2 hx), if_neg (by rw [not_or, not_lt, not_lt]; constructor <;> linarith),
    e1, e2, e3, e4, e5, e6]
  refine ⟨_, rfl, ?_⟩
  have p1 : 0 < realFns.pow spd.gz ((e.zp + e.zh : Int) : ℝ) := Real.rpow_pos_of_pos hz _
  have p2 : 0 < realFns.pow spd.gn ((e.np + e.nh : Int) : ℝ) := Real.rpow_pos_of_pos hn _
  have p3 : 0 < realFns.exp (f1 + f2 + f3 + f4 + f5) := Real.exp_pos _
  have p4 : 0 < realFns.pow (x - pc (e.zp + e.np + (e.zh + e.nh)) x - pauli spd.gz spd.gn e)
      (((e.zp + e.np + (e.zh + e.nh) : Int) : ℝ) - 1) := Real.rpow_pos_of_pos (by linarith) _
  positivity

end CGMF.Exc

import Verif.Model.Optical
import Verif.Proofs.Prefission

/-! # Optical model: proofs about the wave function outside the potential -/

set_option linter.unusedSectionVars false

namespace CGMF.Opt

variable {K : Type} [Field K] [LinearOrder K] [IsStrictOrderedRing K]

/-- The irregular solution continued upwards without limit. -/
def gseq (rt : Nat → K) (eta rho g0 g1 : K) : Nat → K
  | 0 => g0
  | 1 => g1
  | n + 2 => gFun rt eta rho (n + 1) (gseq rt eta rho g0 g1 n) (gseq rt eta rho g0 g1 (n + 1))

theorem range_map_snoc {α : Type} (f : Nat → α) (n : Nat) :
    (List.range n).map f ++ [f n] = (List.range (n + 1)).map f := by
  rw [List.range_succ, List.map_append]; rfl

theorem getElem_range_map {α : Type} (x : Nat → α) {m k : Nat} (h : k < m) :
    ((List.range m).map x)[k]? = some (x k) := by
  rw [List.getElem?_map, List.getElem?_range h]; rfl

theorem readAt_range_map {α : Type} (x : Nat → α) {m k : Nat} (h : k < m) :
    readAt ((List.range m).map x) (k : Int) = .ok (x k) := by
  rw [readAt_ok_iff]
  exact ⟨by omega, by simpa using getElem_range_map x h⟩

theorem gLoop_spec (rt : Nat → K) (eta rho crit a g0 g1 : K) (lmin : Nat) :
    ∀ (n l : Nat), ∀ r, gLoop rt eta rho crit a lmin n (l + 1) (gseq rt eta rho g0 g1 l)
        (gseq rt eta rho g0 g1 (l + 1)) ((List.range (l + 2)).map (gseq rt eta rho g0 g1)) = r →
      l + 1 ≤ r.1 ∧ ((r.1 = l + 1 + n ∧ r.2 = (List.range (r.1 + 1)).map (gseq rt eta rho g0 g1)) ∨
        (r.1 < l + 1 + n ∧ r.2 = (List.range (r.1 + 2)).map (gseq rt eta rho g0 g1))) := by
  intro n
  induction n with
  | zero =>
    intro l r hr
    subst hr
    simp [gLoop]
  | succ n ih =>
    intro l r hr
    unfold gLoop at hr
    have h3 : gFun rt eta rho (l + 1) (gseq rt eta rho g0 g1 l) (gseq rt eta rho g0 g1 (l + 1)) =
        gseq rt eta rho g0 g1 (l + 2) := rfl
    simp only [h3] at hr
    rw [range_map_snoc (gseq rt eta rho g0 g1) (l + 2)] at hr
    split at hr
    · subst hr
      exact ⟨le_refl _, Or.inr ⟨by simp, rfl⟩⟩
    · obtain ⟨h1, h2⟩ := ih (l + 1) r hr
      refine ⟨by omega, ?_⟩
      rcases h2 with h2 | h2
      · exact Or.inl ⟨by omega, h2.2⟩
      · exact Or.inr ⟨by omega, h2.2⟩

/-- The bound the outer loop leaves, and the table it fills. -/
theorem gLoop_full (rt : Nat → K) (eta rho crit a g0 g1 : K) (lmin : Nat) :
    ∃ lmax len : Nat, 1 ≤ lmax ∧ lmax ≤ 48 ∧ lmax + 2 ≤ len ∧ len ≤ 50 ∧
      (let r := gLoop rt eta rho crit a lmin (maxL - 2) 1 g0 g1 [g0, g1]
       (if r.1 = maxL - 1 then r.1 - 1 else r.1) = lmax ∧
        r.2 = (List.range len).map (gseq rt eta rho g0 g1)) := by
  have h := gLoop_spec rt eta rho crit a g0 g1 lmin 48 0
  generalize hr : gLoop rt eta rho crit a lmin (maxL - 2) 1 g0 g1 [g0, g1] = r
  have h := h r hr
  obtain ⟨h1, h2⟩ := h
  rcases h2 with ⟨h2, h3⟩ | ⟨h2, h3⟩
  · refine ⟨48, 50, by omega, le_refl _, le_refl _, le_refl _, ?_⟩
    have : r.1 = 49 := by omega
    have hm : maxL - 1 = 49 := rfl
    simp only
    rw [if_pos (by omega)]
    refine ⟨by omega, ?_⟩
    rw [h3, this]
  · refine ⟨r.1, r.1 + 2, by omega, by omega, le_refl _, by omega, ?_⟩
    have hm : maxL - 1 = 49 := rfl
    simp only
    rw [if_neg (by omega)]
    exact ⟨rfl, h3⟩

/-- A solution of the downward recurrence from `l0`, with its two starting values. -/
structure Down (rt : Nat → K) (eta rho start : K) (l0 : Nat) (f : Nat → K) : Prop where
  top : f (l0 + 1) = 0
  top' : f l0 = start
  step : ∀ l, l < l0 → f l = fFun rt eta rho (l + 1) (f (l + 2)) (f (l + 1))

/-- Downward values, counted from the top. -/
def fdn (rt : Nat → K) (eta rho start : K) (l0 : Nat) : Nat → K
  | 0 => 0
  | 1 => start
  | k + 2 => fFun rt eta rho (l0 - k) (fdn rt eta rho start l0 k) (fdn rt eta rho start l0 (k + 1))

theorem exists_down (rt : Nat → K) (eta rho start : K) (l0 : Nat) : ∃ f, Down rt eta rho start l0 f := by
  refine ⟨fun l => fdn rt eta rho start l0 (l0 + 1 - l), ?_, ?_, ?_⟩
  · simp [fdn]
  · have : l0 + 1 - l0 = 1 := by omega
    simp [this, fdn]
  · intro l hl
    have e0 : l0 + 1 - l = (l0 - l - 1) + 2 := by omega
    have e1 : l0 + 1 - (l + 1) = (l0 - l - 1) + 1 := by omega
    have e2 : l0 + 1 - (l + 2) = l0 - l - 1 := by omega
    have e3 : l0 - (l0 - l - 1) = l + 1 := by omega
    simp only [e0, e1, e2, fdn, e3]

theorem fLoop_spec {rt : Nat → K} {eta rho start : K} {l0 : Nat} {f : Nat → K}
    (hf : Down rt eta rho start l0 f) (lmax : Nat) : ∀ (l : Nat), l ≤ l0 → ∀ acc,
    fLoop rt eta rho lmax l (f (l + 1)) (f l) acc = (List.range (min l (lmax + 2))).map f ++ acc := by
  intro l
  induction l with
  | zero => intro _ acc; simp [fLoop]
  | succ l ih =>
    intro hl acc
    unfold fLoop
    simp only
    rw [show fFun rt eta rho (l + 1) (f (l + 1 + 1)) (f (l + 1)) = f l from (hf.step l (by omega)).symm]
    rw [ih (by omega)]
    by_cases h : l + 1 ≤ lmax + 2
    · rw [if_pos h, min_eq_left h, min_eq_left (by omega), ← range_map_snoc]
      simp
    · rw [if_neg h, min_eq_right (by omega), min_eq_right (by omega)]

theorem fLoop_down {rt : Nat → K} {eta rho start : K} {l0 : Nat} {f : Nat → K}
    (hf : Down rt eta rho start l0 f) {lmax : Nat} (h : lmax + 2 ≤ l0) :
    fLoop rt eta rho lmax l0 0 start [] = (List.range (lmax + 2)).map f := by
  have := fLoop_spec hf lmax l0 (le_refl _) []
  rw [hf.top, hf.top'] at this
  rw [this, min_eq_right h]
  simp

/-- Both recurrences are the same relation between three neighbours. -/
theorem gseq_rel {rt : Nat → K} {eta rho g0 g1 : K} (hrt : ∀ j, 1 ≤ j → rt j ≠ 0) (n : Nat) :
    ((n + 1 : Nat) : K) * rt (n + 2) * gseq rt eta rho g0 g1 (n + 2) =
      (((n + 1 : Nat) : K) + ((n + 2 : Nat) : K)) * (eta + ((n + 1 : Nat) : K) * ((n + 2 : Nat) : K) / rho) *
        gseq rt eta rho g0 g1 (n + 1) - ((n + 2 : Nat) : K) * rt (n + 1) * gseq rt eta rho g0 g1 n := by
  have h1 : ((n + 1 : Nat) : K) ≠ 0 := by exact_mod_cast Nat.succ_ne_zero n
  have h2 := hrt (n + 2) (by omega)
  rw [show gseq rt eta rho g0 g1 (n + 2) = gFun rt eta rho (n + 1) (gseq rt eta rho g0 g1 n)
    (gseq rt eta rho g0 g1 (n + 1)) from rfl]
  unfold gFun
  simp only
  rw [mul_div_cancel₀ _ (mul_ne_zero h1 h2)]

theorem down_rel {rt : Nat → K} {eta rho start : K} {l0 : Nat} {f : Nat → K}
    (hf : Down rt eta rho start l0 f) (hrt : ∀ j, 1 ≤ j → rt j ≠ 0) (n : Nat) (hn : n < l0) :
    ((n + 2 : Nat) : K) * rt (n + 1) * f n =
      (((n + 1 : Nat) : K) + ((n + 2 : Nat) : K)) * (eta + ((n + 1 : Nat) : K) * ((n + 2 : Nat) : K) / rho) *
        f (n + 1) - ((n + 1 : Nat) : K) * rt (n + 2) * f (n + 2) := by
  have h1 : ((n + 2 : Nat) : K) ≠ 0 := by exact_mod_cast Nat.succ_ne_zero (n + 1)
  have h2 := hrt (n + 1) (by omega)
  rw [hf.step n hn]
  unfold fFun
  simp only
  rw [mul_div_cancel₀ _ (mul_ne_zero h1 h2)]

/-- The Casoratian of two solutions. -/
def cas (f g : Nat → K) (l : Nat) : K := f l * g (l + 1) - f (l + 1) * g l

theorem cas_step {rt : Nat → K} {eta rho start g0 g1 : K} {l0 : Nat} {f : Nat → K}
    (hf : Down rt eta rho start l0 f) (hrt : ∀ j, 1 ≤ j → rt j ≠ 0) (n : Nat) (hn : n < l0) :
    rt (n + 1) / ((n + 1 : Nat) : K) * cas f (gseq rt eta rho g0 g1) n =
      rt (n + 2) / ((n + 2 : Nat) : K) * cas f (gseq rt eta rho g0 g1) (n + 1) := by
  have hg := gseq_rel (eta := eta) (rho := rho) (g0 := g0) (g1 := g1) hrt n
  have hd := down_rel hf hrt n hn
  have h1 : ((n + 1 : Nat) : K) ≠ 0 := by exact_mod_cast Nat.succ_ne_zero n
  have h2 : ((n + 2 : Nat) : K) ≠ 0 := by exact_mod_cast Nat.succ_ne_zero (n + 1)
  unfold cas
  generalize gseq rt eta rho g0 g1 = g at *
  rw [div_mul_eq_mul_div, div_mul_eq_mul_div, div_eq_div_iff h1 h2]
  have e : n + 1 + 1 = n + 2 := rfl
  rw [e]
  generalize ((n + 1 : Nat) : K) = x at *
  generalize ((n + 2 : Nat) : K) = y at *
  generalize (x + y) * (eta + x * y / rho) = z at *
  calc rt (n + 1) * (f n * g (n + 1) - f (n + 1) * g n) * y
      = (y * rt (n + 1) * f n) * g (n + 1) - (y * rt (n + 1) * g n) * f (n + 1) := by ring
    _ = (z * f (n + 1) - x * rt (n + 2) * f (n + 2)) * g (n + 1) -
        (z * g (n + 1) - x * rt (n + 2) * g (n + 2)) * f (n + 1) := by
          rw [hd, show y * rt (n + 1) * g n = z * g (n + 1) - x * rt (n + 2) * g (n + 2) by
            rw [hg]; ring]
    _ = _ := by ring

theorem cas_const {rt : Nat → K} {eta rho start g0 g1 : K} {l0 : Nat} {f : Nat → K}
    (hf : Down rt eta rho start l0 f) (hrt : ∀ j, 1 ≤ j → rt j ≠ 0) : ∀ n, n ≤ l0 →
    rt (n + 1) / ((n + 1 : Nat) : K) * cas f (gseq rt eta rho g0 g1) n =
      rt 1 * cas f (gseq rt eta rho g0 g1) 0 := by
  intro n
  induction n with
  | zero => intro _; simp
  | succ n ih =>
    intro hn
    rw [← cas_step hf hrt n (by omega), ih (by omega)]

/-- The normalising factor is governed by the continued irregular solution just above the starting order. -/
theorem cas_top {rt : Nat → K} {eta rho start g0 g1 : K} {l0 : Nat} {f : Nat → K}
    (hf : Down rt eta rho start l0 f) (hrt : ∀ j, 1 ≤ j → rt j ≠ 0) (hs : start ≠ 0) :
    rt 1 * cas f (gseq rt eta rho g0 g1) 0 = 0 ↔ gseq rt eta rho g0 g1 (l0 + 1) = 0 := by
  rw [← cas_const hf hrt l0 (le_refl _)]
  unfold cas
  rw [hf.top, hf.top']
  have h1 : ((l0 + 1 : Nat) : K) ≠ 0 := by exact_mod_cast Nat.succ_ne_zero l0
  have h2 := hrt (l0 + 1) (by omega)
  simp [hs, h2]
  intro h; exact absurd h (by exact_mod_cast Nat.succ_ne_zero l0)

theorem derivs_spec (rt : Nat → K) (eta rho : K) (x : Nat → K) (len : Nat) :
    ∀ (n l : Nat), l + n + 1 ≤ len → ∀ acc, derivs rt eta rho ((List.range len).map x) n l acc =
      .ok (acc ++ (List.range n).map fun k : Nat => dFun rt eta rho (l + k) (x (l + k)) (x (l + k + 1))) := by
  intro n
  induction n with
  | zero => intro l _ acc; simp [derivs]
  | succ n ih =>
    intro l hl acc
    unfold derivs
    have h1 : readAt ((List.range len).map x) (l : Int) = .ok (x l) := by
      exact readAt_range_map x (by omega)
    have h2 : readAt ((List.range len).map x) ((l + 1 : Nat) : Int) = .ok (x (l + 1)) := by
      exact readAt_range_map x (by omega)
    simp only [h1, h2, Res.bind_ok]
    rw [ih (l + 1) (by omega), List.range_succ_eq_map]
    simp [Function.comp_def, Nat.add_assoc, Nat.add_comm 1]

/-- Wronskian of two columns whose derivatives come from `omDfunction`. -/
theorem dFun_wronsk (rt : Nat → K) (eta rho : K) (l : Nat) (f0 f1 g0 g1 : K) :
    dFun rt eta rho l f0 f1 * g0 - dFun rt eta rho l g0 g1 * f0 =
      rt (l + 1) / ((l + 1 : Nat) : K) * (f0 * g1 - f1 * g0) := by
  unfold dFun
  have h1 : ((l + 1 : Nat) : K) ≠ 0 := by exact_mod_cast Nat.succ_ne_zero l
  simp only
  generalize ((l + 1 : Nat) : K) = y at *
  generalize eta + y * y / rho = z
  field_simp
  ring

/-- What one pass leaves. -/
def passOut (rt : Nat → K) (eta rho : K) (lmax len : Nat) (f g : Nat → K) (κ : K) : Ext K where
  lmax := lmax
  G := (List.range len).map g
  F := (List.range (lmax + 2)).map fun l : Nat => f l * κ
  dG := (List.range (lmax + 1)).map fun l : Nat => dFun rt eta rho l (g l) (g (l + 1))
  dF := (List.range (lmax + 1)).map fun l : Nat => dFun rt eta rho l (f l * κ) (f (l + 1) * κ)

theorem onePass_spec {rt : Nat → K} {eta rho start g0 g1 : K} {l0 lmax len : Nat} {f : Nat → K}
    (hf : Down rt eta rho start l0 f) (h0 : lmax + 2 ≤ l0) (hl : lmax + 2 ≤ len) :
    onePass rt eta rho start lmax l0 ((List.range len).map (gseq rt eta rho g0 g1)) =
      if rt 1 * cas f (gseq rt eta rho g0 g1) 0 = 0 then .ub
      else .ok (passOut rt eta rho lmax len f (gseq rt eta rho g0 g1)
        (1 / (rt 1 * cas f (gseq rt eta rho g0 g1) 0))) := by
  unfold onePass
  simp only
  rw [fLoop_down hf h0]
  generalize gseq rt eta rho g0 g1 = g
  have r : ∀ (x : Nat → K) (m k : Nat), k < m → readAt ((List.range m).map x) (k : Int) = .ok (x k) := by
    intro x m k hk
    exact readAt_range_map x hk
  have r0 := r f (lmax + 2) 0 (by omega)
  have r1 := r f (lmax + 2) 1 (by omega)
  have s0 := r g len 0 (by omega)
  have s1 := r g len 1 (by omega)
  simp only [Nat.cast_zero, Nat.cast_one] at r0 r1 s0 s1
  simp only [r0, r1, s0, s1, Res.bind_ok]
  have e : (f 0 * g 1 - g 0 * f 1) * rt 1 = rt 1 * cas f g 0 := by unfold cas; ring
  rw [e]
  by_cases h : rt 1 * cas f g 0 = 0
  · rw [if_pos h, if_pos h]; rfl
  · rw [if_neg h, if_neg h]
    simp only [Res.bind_ok, List.map_map]
    have hd := derivs_spec rt eta rho (fun l => f l * (1 / (rt 1 * cas f g 0))) (lmax + 2) (lmax + 1) 0
      (by omega) []
    have hg := derivs_spec rt eta rho g len (lmax + 1) 0 (by omega) []
    simp only [Function.comp_def]
    rw [hd, hg]
    simp [passOut]

theorem passOut_get (rt : Nat → K) (eta rho : K) (lmax len : Nat) (f g : Nat → K) (κ : K)
    (hl : lmax + 2 ≤ len) (l : Nat) (h : l ≤ lmax) :
    (passOut rt eta rho lmax len f g κ).G[l]? = some (g l) ∧
    (passOut rt eta rho lmax len f g κ).F[l]? = some (f l * κ) ∧
    (passOut rt eta rho lmax len f g κ).dG[l]? = some (dFun rt eta rho l (g l) (g (l + 1))) ∧
    (passOut rt eta rho lmax len f g κ).dF[l]? = some (dFun rt eta rho l (f l * κ) (f (l + 1) * κ)) := by
  unfold passOut
  refine ⟨?_, ?_, ?_, ?_⟩ <;> exact getElem_range_map _ (by omega)

theorem passOut_wronsk {rt : Nat → K} {eta rho start g0 g1 : K} {l0 : Nat} {f : Nat → K}
    (hf : Down rt eta rho start l0 f) (hrt : ∀ j, 1 ≤ j → rt j ≠ 0)
    (hk : rt 1 * cas f (gseq rt eta rho g0 g1) 0 ≠ 0) (l : Nat) (h : l ≤ l0) :
    dFun rt eta rho l (f l * (1 / (rt 1 * cas f (gseq rt eta rho g0 g1) 0)))
        (f (l + 1) * (1 / (rt 1 * cas f (gseq rt eta rho g0 g1) 0))) * gseq rt eta rho g0 g1 l -
      dFun rt eta rho l (gseq rt eta rho g0 g1 l) (gseq rt eta rho g0 g1 (l + 1)) *
        (f l * (1 / (rt 1 * cas f (gseq rt eta rho g0 g1) 0))) = 1 := by
  rw [dFun_wronsk]
  have hc := cas_const (g0 := g0) (g1 := g1) hf hrt l h
  generalize hκ : rt 1 * cas f (gseq rt eta rho g0 g1) 0 = k at *
  unfold cas at hc
  have : rt (l + 1) / ((l + 1 : Nat) : K) *
      (f l * (1 / k) * gseq rt eta rho g0 g1 (l + 1) - f (l + 1) * (1 / k) * gseq rt eta rho g0 g1 l) =
      (rt (l + 1) / ((l + 1 : Nat) : K) *
        (f l * gseq rt eta rho g0 g1 (l + 1) - f (l + 1) * gseq rt eta rho g0 g1 l)) * (1 / k) := by ring
  rw [this, hc]
  field_simp

/-- The Wronskian is exact, so the first pass is accepted; the only failure is a vanishing normalisation. -/
theorem search_spec {rt : Nat → K} {eta rho start tol g0 g1 : K} {lmax len : Nat}
    (hrt : ∀ j, 1 ≤ j → rt j ≠ 0) (hs : start ≠ 0) (ht : 0 ≤ tol) (hl : lmax + 2 ≤ len) (hm : lmax ≤ 48)
    {f : Nat → K} (hf : Down rt eta rho start (lmax + 10) f) :
    search rt eta rho start tol lmax ((List.range len).map (gseq rt eta rho g0 g1)) (lmax + 10) =
      if gseq rt eta rho g0 g1 (lmax + 11) = 0 then .ub
      else .ok (passOut rt eta rho lmax len f (gseq rt eta rho g0 g1)
        (1 / (rt 1 * cas f (gseq rt eta rho g0 g1) 0))) := by
  unfold search
  rw [onePass_spec hf (by omega) hl]
  have hc := cas_top (g0 := g0) (g1 := g1) hf hrt hs
  by_cases h : gseq rt eta rho g0 g1 (lmax + 11) = 0
  · rw [if_pos h, if_pos (hc.mpr h)]; rfl
  · have hk : rt 1 * cas f (gseq rt eta rho g0 g1) 0 ≠ 0 := fun hh => h (hc.mp hh)
    rw [if_neg h, if_neg hk]
    simp only [Res.bind]
    have hw : wronskFails tol (passOut rt eta rho lmax len f (gseq rt eta rho g0 g1)
        (1 / (rt 1 * cas f (gseq rt eta rho g0 g1) 0))) = false := by
      unfold wronskFails
      rw [List.any_eq_false]
      intro l hl'
      have hll : l ≤ lmax := by
        have := List.mem_range.mp hl'
        simp only [passOut] at this
        omega
      obtain ⟨g1', g2', g3', g4'⟩ := passOut_get rt eta rho lmax len f (gseq rt eta rho g0 g1)
        (1 / (rt 1 * cas f (gseq rt eta rho g0 g1) 0)) hl l hll
      rw [g1', g2', g3', g4']
      simp only
      rw [passOut_wronsk hf hrt hk l (by omega)]
      simpa using ht
    rw [hw]
    simp [maxL0]
    omega

/-- `omExternalFunction` in full: it is undefined exactly when the normalisation vanishes, it never ends the
process, and otherwise returns the recurrence solutions with unit Wronskian. -/
theorem external_spec {rt : Nat → K} {eta rho crit start tol a g0 g1 : K} {lmin : Nat}
    (hrt : ∀ j, 1 ≤ j → rt j ≠ 0) (hs : start ≠ 0) (ht : 0 ≤ tol) (hr : rho ≠ 0) :
    ∃ lmax len : Nat, 1 ≤ lmax ∧ lmax ≤ 48 ∧ lmax + 2 ≤ len ∧ len ≤ 50 ∧
      ∃ f, Down rt eta rho start (lmax + 10) f ∧
      external rt eta rho crit start tol a g0 g1 lmin =
        if gseq rt eta rho g0 g1 (lmax + 11) = 0 then .ub
        else .ok (passOut rt eta rho lmax len f (gseq rt eta rho g0 g1)
          (1 / (rt 1 * cas f (gseq rt eta rho g0 g1) 0))) := by
  obtain ⟨lmax, len, h1, h2, h3, h4, h5⟩ := gLoop_full rt eta rho crit a g0 g1 lmin
  obtain ⟨f, hf⟩ := exists_down rt eta rho start (lmax + 10)
  refine ⟨lmax, len, h1, h2, h3, h4, f, hf, ?_⟩
  unfold external
  rw [if_neg hr]
  simp only at h5 ⊢
  rw [h5.1, h5.2]
  exact search_spec hrt hs ht h3 h2 hf

/-- Past the turning point the irregular solution of a neutral particle grows, so it cannot vanish. -/
theorem gseq_grows {rho g0 g1 : K} (hr : 0 < rho) {L : Nat} (hL : rho ≤ (L : K) + 3 / 2)
    (h1 : |gseq (fun j : Nat => (j : K)) 0 rho g0 g1 L| ≤ |gseq (fun j : Nat => (j : K)) 0 rho g0 g1 (L + 1)|)
    (h2 : gseq (fun j : Nat => (j : K)) 0 rho g0 g1 (L + 1) ≠ 0) :
    ∀ m, L ≤ m →
      |gseq (fun j : Nat => (j : K)) 0 rho g0 g1 m| ≤ |gseq (fun j : Nat => (j : K)) 0 rho g0 g1 (m + 1)| ∧
      gseq (fun j : Nat => (j : K)) 0 rho g0 g1 (m + 1) ≠ 0 := by
  intro m hm
  induction m, hm using Nat.le_induction with
  | base => exact ⟨h1, h2⟩
  | succ m hm ih =>
    obtain ⟨ih1, ih2⟩ := ih
    have hx : gseq (fun j : Nat => (j : K)) 0 rho g0 g1 (m + 1 + 1) =
        (2 * (m : K) + 3) / rho * gseq (fun j : Nat => (j : K)) 0 rho g0 g1 (m + 1) -
          gseq (fun j : Nat => (j : K)) 0 rho g0 g1 m := by
      rw [show gseq (fun j : Nat => (j : K)) 0 rho g0 g1 (m + 1 + 1) =
        gFun (fun j : Nat => (j : K)) 0 rho (m + 1) (gseq (fun j : Nat => (j : K)) 0 rho g0 g1 m)
        (gseq (fun j : Nat => (j : K)) 0 rho g0 g1 (m + 1)) from rfl]
      unfold gFun
      have a1 : ((m + 1 : Nat) : K) ≠ 0 := by exact_mod_cast Nat.succ_ne_zero m
      have a2 : ((m + 1 + 1 : Nat) : K) ≠ 0 := by exact_mod_cast Nat.succ_ne_zero (m + 1)
      simp only
      push_cast at a1 a2 ⊢
      field_simp
      ring
    set A := gseq (fun j : Nat => (j : K)) 0 rho g0 g1 m
    set B := gseq (fun j : Nat => (j : K)) 0 rho g0 g1 (m + 1)
    have hq : 2 ≤ (2 * (m : K) + 3) / rho := by
      rw [le_div_iff₀ hr]
      have : (L : K) ≤ (m : K) := by exact_mod_cast hm
      linarith
    have hB : 0 < |B| := abs_pos.mpr ih2
    have hge : |B| ≤ |gseq (fun j : Nat => (j : K)) 0 rho g0 g1 (m + 1 + 1)| := by
      rw [hx]
      have t1 : |(2 * (m : K) + 3) / rho * B| - |A| ≤ |(2 * (m : K) + 3) / rho * B - A| := abs_sub_abs_le_abs_sub _ _
      rw [abs_mul, abs_of_nonneg (by linarith : (0 : K) ≤ (2 * (m : K) + 3) / rho)] at t1
      nlinarith
    exact ⟨hge, abs_pos.mp (lt_of_lt_of_le hB hge)⟩

end CGMF.Opt

import Verif.Proofs.Exciton
import Verif.Proofs.Prefission

/-! State densities and transition rates are not negative. -/

set_option linter.unusedSectionVars false

namespace CGMF.Exc

open CGMF.ExcSpec

variable {K : Type} [Field K] [LinearOrder K] [IsStrictOrderedRing K]

/-! ### State densities -/

theorem fact_ok (n : Int) (h0 : 0 ≤ n) (h1 : n ≤ 30) : ∃ v : K, fact (K := K) n = .ok v := by
  unfold fact readAt
  have hl : factTable.length = 31 := rfl
  rw [dif_pos ⟨h0, by omega⟩]
  exact ⟨_, rfl⟩

theorem fact_zero : fact (K := K) 0 = .ok 0 := by
  have : readAt factTable 0 = .ok 0 := by decide
  unfold fact; rw [this]; simp [Res.bind]

theorem fact_one : fact (K := K) 1 = .ok 0 := by
  have : readAt factTable 1 = .ok 0 := by decide
  unfold fact; rw [this]; simp [Res.bind]

theorem wellTerm_ok (F : Fns K) (n : Int) (h i : Nat) (ex v : K) (hh : h ≤ 30) (hi : i ≤ h) :
    ∃ t, wellTerm F n h i ex v = .ok t := by
  unfold wellTerm
  by_cases c : ex - (i : K) * v > 0
  · rw [if_pos c]
    obtain ⟨a, ha⟩ := fact_ok (K := K) h (by omega) (by omega)
    obtain ⟨b, hb⟩ := fact_ok (K := K) i (by omega) (by omega)
    obtain ⟨d, hd⟩ := fact_ok (K := K) ((h : Int) - i) (by omega) (by omega)
    rw [ha, hb, hd]
    exact ⟨_, rfl⟩
  · rw [if_neg c]; exact ⟨_, rfl⟩

theorem wellSum_ok (F : Fns K) (n : Int) (h : Nat) (ex v : K) (hh : h ≤ 30) :
    ∀ (is : List Nat) (x : K), (∀ i ∈ is, i ≤ h) → ∃ t, wellSum F n h ex v is x = .ok t := by
  intro is
  induction is with
  | nil => intro x _; exact ⟨x, rfl⟩
  | cons i is ih =>
    intro x hx
    obtain ⟨t, ht⟩ := wellTerm_ok F n h i ex v hh (hx i List.mem_cons_self)
    obtain ⟨y, hy⟩ := ih (x + t) (fun a ha => hx a (List.mem_cons_of_mem _ ha))
    refine ⟨y, ?_⟩
    show (wellTerm F n h i ex v).bind _ = _
    rw [ht]; exact hy

theorem range'_le (h : Nat) : ∀ i ∈ List.range' 1 h, i ≤ h := by
  intro i hi
  rw [List.mem_range'_1] at hi; omega

theorem wellSmear_ok (F : Fns K) (n : Int) (h : Nat) (ex v w : K) (hh : h ≤ 30) :
    ∀ (ps : List Int) (a b : K), ∃ t, wellSmear F n h ex v w ps a b = .ok t := by
  intro ps
  induction ps with
  | nil => intro a b; exact ⟨_, rfl⟩
  | cons p ps ih =>
    intro a b
    unfold wellSmear
    by_cases c : v + (p : K) * w < 0 ∨ 38 < v + (p : K) * w
    · simp only []; rw [if_pos c]; exact ih a b
    · simp only []; rw [if_neg c]
      obtain ⟨y, hy⟩ := wellSum_ok F n h ex (v + (p : K) * w) hh (List.range' 1 h) 1 (range'_le h)
      rw [hy]; exact ih _ _

/-- The finite-well factor is defined, and not negative up to the depth of 38 MeV. -/
theorem finiteWell_ok (F : Fns K) (n : Int) (h : Nat) (ex v : K) (hh : h ≤ 30) : ∃ x, finiteWell F n h ex v = .ok x := by
  unfold finiteWell
  simp only []
  generalize (if h > 1 then 38 else v) = u
  by_cases c : u < 38 - 1 / 2
  · rw [if_pos c]
    by_cases c1 : n = 1 ∧ h = 1
    · rw [if_pos c1]
      split
      · exact ⟨_, rfl⟩
      · split <;> exact ⟨_, rfl⟩
    · rw [if_neg c1]
      obtain ⟨s, hs⟩ := wellSmear_ok F n h ex u (u * (38 - u) / (2 * 38)) hh [-4, -3, -2, -1, 0, 1, 2, 3, 4] 0 0
      rw [hs]; exact ⟨_, rfl⟩
  · rw [if_neg c]
    split
    · exact wellSum_ok F n h ex _ hh (List.range' 1 h) 1 (range'_le h)
    · exact ⟨_, rfl⟩

theorem finiteWell_nonneg {F : Fns K} (hF : LibM F) (n : Int) (hn : 1 ≤ n) (h : Nat) (ex v : K) (hex : ex ≤ 38)
    (x : K) (hx : finiteWell F n h ex v = .ok x) : 0 ≤ x := by
  unfold finiteWell at hx
  simp only [] at hx
  generalize hu : (if h > 1 then 38 else v) = u at hx
  by_cases c : u < 38 - 1 / 2
  · rw [if_pos c] at hx
    by_cases c1 : n = 1 ∧ h = 1
    · rw [if_pos c1] at hx
      split at hx
      · cases hx; exact le_rfl
      · split at hx
        · cases hx; exact zero_le_one
        · cases hx
          have := hF.exp_pos ((ex - u) / (u * (38 - u) / (2 * 38)))
          positivity
    · rw [if_neg c1] at hx
      generalize wellSmear F n h ex _ _ _ 0 0 = o at hx
      rcases o with s | _ | _
      · simp only [Res.bind, Res.ok.injEq] at hx
        rw [← hx]
        generalize (if 0 < s.1 then s.2 / s.1 else 1) = y
        by_cases hy : y < 0
        · rw [if_pos hy]
        · rw [if_neg hy]; exact not_lt.1 hy
      · cases hx
      · cases hx
  · rw [if_neg c] at hx
    by_cases c2 : u < ex
    · rw [if_pos c2] at hx
      by_cases h1 : h > 1
      · rw [if_pos h1] at hu
        rw [← hu] at c2
        exact absurd c2 (not_lt.2 hex)
      · rw [if_neg h1] at hu
        subst hu
        obtain rfl | rfl : h = 0 ∨ h = 1 := by omega
        · cases hx; exact zero_le_one
        · have hv : 0 < v := by
            rw [not_lt] at c
            have : (0 : K) < 38 - 1 / 2 := by norm_num
            exact lt_of_lt_of_le this c
          have hp : 0 < ex := lt_trans hv c2
          have : wellTerm F n 1 1 ex v = .ok (-F.pow (1 - v / ex) ((n : K) - 1)) := by
            unfold wellTerm
            rw [if_pos (by push_cast; rw [one_mul]; exact sub_pos.2 c2)]
            rw [show ((1 : Nat) : Int) = 1 from rfl, fact_one, show (1 : Int) - 1 = 0 from rfl, fact_zero]
            simp [Res.bind, hF.exp_zero]
          have e : wellSum F n 1 ex v (List.range' 1 1) 1 = .ok (1 + -F.pow (1 - v / ex) ((n : K) - 1)) := by
            show (wellTerm F n 1 1 ex v).bind _ = _
            rw [this]; rfl
          rw [e] at hx
          cases hx
          have := hF.pow_le_one (1 - v / ex) ((n : K) - 1)
            (by rw [sub_nonneg, div_le_one hp]; exact le_of_lt c2)
            (by have := div_pos hv hp; linarith)
            (by rw [sub_nonneg]; exact_mod_cast hn)
          linarith
    · rw [if_neg c2] at hx
      cases hx; exact zero_le_one

theorem pauli_nonneg {gz gn : K} (hz : 0 < gz) (hn : 0 < gn) (e : Exconf) : 0 ≤ pauli gz gn e := by
  unfold pauli
  split
  · exact le_rfl
  · rename_i h
    simp only [not_or, not_lt] at h
    have key : ∀ a b : Int, 0 ≤ a → 0 ≤ b →
        (0 : K) ≤ ((max a b : Int) : K) * ((max a b : Int) : K) - ((a * a + b * b + a + b : Int) : K) / 4 := by
      intro a b ha hb
      have : a * a + b * b + a + b ≤ 4 * (max a b * max a b) := by
        have l1 : a ≤ max a b := le_max_left _ _
        have l2 : b ≤ max a b := le_max_right _ _
        generalize hm : max a b = m at *
        have h1 : a * a ≤ m * m := mul_le_mul l1 l1 ha (by omega)
        have h2 : b * b ≤ m * m := mul_le_mul l2 l2 hb (by omega)
        have h3 : m ≤ m * m := by
          rcases Int.lt_or_le m 1 with g | g
          · have : m = 0 := by omega
            subst this; simp
          · nlinarith
        omega
      have h2 : ((a * a + b * b + a + b : Int) : K) ≤ ((4 * (max a b * max a b) : Int) : K) := by exact_mod_cast this
      push_cast at h2 ⊢
      linarith
    have k1 := key e.zp e.zh h.1 h.2.1
    have k2 := key e.np e.nh h.2.2.1 h.2.2.2
    exact add_nonneg (div_nonneg k1 (le_of_lt hz)) (div_nonneg k2 (le_of_lt hn))

/-- State density of a configuration of the table: defined. -/
theorem stateDensity_ok (F : Fns K) (pc : Int → K → K) (spd : SPdens K) (x : K) (e : Exconf) (he : InTable e) :
    ∃ v, stateDensity F pc spd x e = .ok v := by
  obtain ⟨a1, a2, a3, a4⟩ := he
  unfold stateDensity
  simp only []
  split
  · exact ⟨_, rfl⟩
  · split
    · exact ⟨_, rfl⟩
    · rename_i h0 h
      simp only [not_or, not_lt] at h
      split
      · exact ⟨_, rfl⟩
      · split
        · exact ⟨_, rfl⟩
        · obtain ⟨f1, h1⟩ := fact_ok (K := K) e.zp (by omega) (by omega)
          obtain ⟨f2, h2⟩ := fact_ok (K := K) e.zh (by omega) (by omega)
          obtain ⟨f3, h3⟩ := fact_ok (K := K) e.np (by omega) (by omega)
          obtain ⟨f4, h4⟩ := fact_ok (K := K) e.nh (by omega) (by omega)
          obtain ⟨f5, h5⟩ := fact_ok (K := K) (e.zp + e.np + (e.zh + e.nh) - 1) (by omega) (by omega)
          obtain ⟨w, hw⟩ := finiteWell_ok F (e.zp + e.np + (e.zh + e.nh)) (e.zh + e.nh).toNat
            (x - pc (e.zp + e.np + (e.zh + e.nh)) x) spd.wellDepth (by omega)
          rw [h1, h2, h3, h4, h5]
          simp only [Res.bind]
          rw [hw]
          exact ⟨_, rfl⟩

/-- What a value of the state density can be. -/
theorem stateDensity_cases (F : Fns K) (pc : Int → K → K) (spd : SPdens K) (x : K) (e : Exconf) (v : K)
    (h : stateDensity F pc spd x e = .ok v) :
    v = 0 ∨ (0 ≤ e.zp ∧ 0 ≤ e.zh ∧ 0 ≤ e.np ∧ 0 ≤ e.nh ∧ e.zp + e.zh + e.np + e.nh ≠ 0 ∧ 0 < x ∧
      pauli spd.gz spd.gn e ≤ x - pc (e.zp + e.np + (e.zh + e.nh)) x ∧
      ∃ g fw : K, (LibM F → 0 ≤ spd.gz → 0 ≤ spd.gn → 0 ≤ g) ∧
        finiteWell F (e.zp + e.np + (e.zh + e.nh)) (e.zh + e.nh).toNat
          (x - pc (e.zp + e.np + (e.zh + e.nh)) x) spd.wellDepth = .ok fw ∧
        v = g * F.pow (x - pc (e.zp + e.np + (e.zh + e.nh)) x - pauli spd.gz spd.gn e)
          (((e.zp + e.np + (e.zh + e.nh) : Int) : K) - 1) * fw) := by
  unfold stateDensity at h
  simp only [] at h
  split at h
  · left; cases h; rfl
  · rename_i h0
    split at h
    · left; cases h; rfl
    · rename_i h1
      simp only [not_or, not_lt] at h1
      split at h
      · left; cases h; rfl
      · rename_i h2
        split at h
        · left; cases h; rfl
        · rename_i h3
          simp only [not_or, not_lt] at h3
          right
          generalize fact (K := K) e.zp = o1 at h
          rcases o1 with f1 | _ | _
          · generalize fact (K := K) e.zh = o2 at h
            rcases o2 with f2 | _ | _
            · generalize fact (K := K) e.np = o3 at h
              rcases o3 with f3 | _ | _
              · generalize fact (K := K) e.nh = o4 at h
                rcases o4 with f4 | _ | _
                · generalize fact (K := K) (e.zp + e.np + (e.zh + e.nh) - 1) = o5 at h
                  rcases o5 with f5 | _ | _
                  · generalize hw : finiteWell F (e.zp + e.np + (e.zh + e.nh)) (e.zh + e.nh).toNat
                      (x - pc (e.zp + e.np + (e.zh + e.nh)) x) spd.wellDepth = o6 at h
                    rcases o6 with fw | _ | _
                    · simp only [Res.bind, Res.ok.injEq] at h
                      refine ⟨h1.1, h1.2.1, h1.2.2.1, h1.2.2.2, by omega, not_le.1 h2, h3.2, _, fw, ?_, rfl, h.symm⟩
                      intro hF hz hn
                      exact div_nonneg (mul_nonneg (hF.pow_nonneg _ _ hz) (hF.pow_nonneg _ _ hn)) (le_of_lt (hF.exp_pos _))
                    · cases h
                    · cases h
                  · cases h
                  · cases h
                · cases h
                · cases h
              · cases h
              · cases h
            · cases h
            · cases h
          · cases h
          · cases h

theorem stateDensity_nonneg {F : Fns K} (hF : LibM F) (pc : Int → K → K) (hpc : ∀ n x, 1 ≤ n → n ≤ 31 → 0 < x → 0 ≤ pc n x) (spd : SPdens K)
    (hz : 0 ≤ spd.gz) (hn : 0 ≤ spd.gn) (x : K) (hx : x ≤ 38) (e : Exconf) (he : InTable e) (v : K)
    (h : stateDensity F pc spd x e = .ok v) : 0 ≤ v := by
  rcases stateDensity_cases F pc spd x e v h with rfl | ⟨h1, h2, h3, h4, h5, h6, h7, g, fw, hg, hw, rfl⟩
  · exact le_rfl
  · have := hpc (e.zp + e.np + (e.zh + e.nh)) x (by omega) (by have := he.2.2.2; omega) h6
    exact mul_nonneg (mul_nonneg (hg hF hz hn) (hF.pow_nonneg _ _ (by linarith)))
      (finiteWell_nonneg hF _ (by omega) _ _ _ (by linarith) fw hw)

theorem stateDensity_below {F : Fns K} (hF : LibM F) (pc : Int → K → K) (hpc : ∀ n x, 1 ≤ n → n ≤ 31 → 0 < x → 0 ≤ pc n x) (spd : SPdens K)
    (x : K) (e : Exconf) (hx : x ≤ pauli spd.gz spd.gn e) (hne : e.zp + e.zh + e.np + e.nh ≠ 1) (he : InTable e) (v : K)
    (h : stateDensity F pc spd x e = .ok v) : v = 0 := by
  rcases stateDensity_cases F pc spd x e v h with rfl | ⟨h1, h2, h3, h4, h5, h6, h7, g, fw, hg, hw, rfl⟩
  · rfl
  · have := hpc (e.zp + e.np + (e.zh + e.nh)) x (by omega) (by have := he.2.2.2; omega) h6
    have e1 : x - pc (e.zp + e.np + (e.zh + e.nh)) x - pauli spd.gz spd.gn e = 0 := by linarith
    rw [e1, hF.zero_pow]
    · ring
    · have : (1 : Int) < e.zp + e.np + (e.zh + e.nh) := by omega
      rw [sub_pos]; exact_mod_cast this

theorem stateDensity_above {F : Fns K} (pc : Int → K → K) (hpc : ∀ n x, 1 ≤ n → n ≤ 31 → 0 < x → 0 ≤ pc n x) (spd : SPdens K)
    (x : K) (e : Exconf) (he : InTable e) (v : K) (h : stateDensity F pc spd x e = .ok v) (hv : v ≠ 0) :
    pauli spd.gz spd.gn e ≤ x := by
  rcases stateDensity_cases F pc spd x e v h with rfl | ⟨h1, h2, h3, h4, h5, h6, h7, _⟩
  · exact absurd rfl hv
  · have := hpc (e.zp + e.np + (e.zh + e.nh)) x (by omega) (by have := he.2.2.2; omega) h6
    linarith

theorem stateDensity_zero {F : Fns K} (pc : Int → K → K) (spd : SPdens K) (x : K) (hx : x ≤ 0) (e : Exconf) (v : K)
    (h : stateDensity F pc spd x e = .ok v) : v = 0 := by
  rcases stateDensity_cases F pc spd x e v h with rfl | ⟨h1, h2, h3, h4, h5, h6, _⟩
  · rfl
  · exact absurd hx (not_le.2 h6)

/-! ### Rates -/

theorem simpson_nonneg (c e1 e2 : K) (f : K → K) (hc : 0 ≤ c) (he : e1 ≤ e2) (hf : ∀ x, 0 ≤ f x) :
    0 ≤ simpson c e1 e2 f := by
  unfold simpson
  simp only []
  have hd : 0 ≤ (e2 - e1) / 100 := div_nonneg (sub_nonneg.2 he) (by norm_num)
  have h0 : 0 ≤ (e2 - e1) / 100 / 3 := div_nonneg hd (by norm_num)
  refine add_nonneg (mul_nonneg (add_nonneg (hf _) (hf _)) h0) (List.sum_nonneg ?_)
  intro y hy
  obtain ⟨i, _, rfl⟩ := List.mem_map.1 hy
  refine mul_nonneg (mul_nonneg ?_ hc) (hf _)
  split
  · exact mul_nonneg (by norm_num) h0
  · exact mul_nonneg (by norm_num) h0

theorem simpson_zero (c e1 e2 : K) (f : K → K) (he : e2 ≤ e1) (hf : ∀ x, e2 ≤ x → f x = 0) :
    simpson c e1 e2 f = 0 := by
  unfold simpson
  simp only []
  rw [hf e1 he, hf e2 le_rfl, add_zero, zero_mul, zero_add]
  refine List.sum_eq_zero ?_
  intro y hy
  obtain ⟨i, hi, rfl⟩ := List.mem_map.1 hy
  rw [List.mem_range'_1] at hi
  have : e2 ≤ e1 + (i : K) * ((e2 - e1) / 100) := by
    have h1 : (i : K) ≤ 100 := by exact_mod_cast (by omega : i ≤ 100)
    nlinarith
  rw [hf _ this, mul_zero]

variable {F : Fns K} {pc : Int → K → K} {spd : SPdens K} {E : K}

/-- Facts about a composite system that the rates use. -/
theorem composite_facts (hF : LibM F) (hpc : ∀ n x, 1 ≤ n → n ≤ 31 → 0 < x → 0 ≤ pc n x) (hz : 0 < spd.gz) (hn : 0 < spd.gn) (hE : E ≤ 38)
    {q : Preeq K} {i j : Nat} (hq : Composite F pc spd E q i j) :
    (∀ x ew ep er, InTable ew → InTable ep → InTable er → 0 ≤ densInteg q x ew ep er) ∧
    (∀ x ew ep er, InTable er → er.zp + er.zh + er.np + er.nh ≠ 1 → E - q.pauliE er ≤ x → densInteg q x ew ep er = 0) := by
  constructor
  · intro x ew ep er h1 h2 h3
    unfold densInteg
    rw [hq.total]
    have o1 := hq.omega x ew h1
    have o2 := hq.omega x ep h2
    have o3 := hq.omega (E - x) er h3
    by_cases hx : x ≤ 0
    · rw [stateDensity_zero pc spd x hx ew _ o1]; simp
    · by_cases hx' : x ≤ E
      · exact mul_nonneg (mul_nonneg (stateDensity_nonneg hF pc hpc spd hz.le hn.le x (le_trans hx' hE) ew h1 _ o1)
          (stateDensity_nonneg hF pc hpc spd hz.le hn.le x (le_trans hx' hE) ep h2 _ o2))
          (stateDensity_nonneg hF pc hpc spd hz.le hn.le _ (by rw [not_le] at hx; linarith) er h3 _ o3)
      · rw [stateDensity_zero pc spd _ (by rw [not_le] at hx'; linarith) er _ o3]; simp
  · intro x ew ep er h3 hne hx
    unfold densInteg
    rw [hq.total]
    have o3 := hq.omega (E - x) er h3
    rw [stateDensity_below hF pc hpc spd _ er (by rw [← hq.pauli]; linarith) hne h3 _ o3, mul_zero]

theorem piece_nonneg (hF : LibM F) (hpc : ∀ n x, 1 ≤ n → n ≤ 31 → 0 < x → 0 ≤ pc n x) (hz : 0 < spd.gz) (hn : 0 < spd.gn) (hE : E ≤ 38)
    {q : Preeq K} {i j : Nat} (hq : Composite F pc spd E q i j) (c top : K) (hc : 0 ≤ c) (ew ep er : Exconf)
    (h1 : InTable ew) (h2 : InTable ep) (h3 : InTable er) (hne : er.zp + er.zh + er.np + er.nh ≠ 1) :
    0 ≤ simpson c (top - q.pauliE er) (q.exTotal - q.pauliE er) fun x => densInteg q x ew ep er := by
  obtain ⟨f1, f2⟩ := composite_facts hF hpc hz hn hE hq
  rw [hq.total]
  rcases le_total (top - q.pauliE er) (E - q.pauliE er) with g | g
  · exact simpson_nonneg _ _ _ _ hc g fun x => f1 x ew ep er h1 h2 h3
  · rw [simpson_zero _ _ _ _ g fun x hx => f2 x ew ep er h3 hne hx]

theorem small_confAt {i j : Nat} (hi : i < 6) (hj : j < 6) : InTable (confAt i j) := by
  unfold InTable confAt; refine ⟨?_, ?_, ?_, ?_⟩ <;> simp only [] <;> omega

theorem omegaTotal_nonneg (hF : LibM F) (hpc : ∀ n x, 1 ≤ n → n ≤ 31 → 0 < x → 0 ≤ pc n x) (hz : 0 < spd.gz) (hn : 0 < spd.gn) (hE : E ≤ 38)
    {q : Preeq K} {i j : Nat} (hi : i < 6) (hj : j < 6) (hq : Composite F pc spd E q i j) : 0 ≤ q.omegaTotal :=
  stateDensity_nonneg hF pc hpc spd hz.le hn.le E hE _ (small_confAt hi hj) _ hq.omegaTotal

theorem plus_nonneg (hF : LibM F) (hpc : ∀ n x, 1 ≤ n → n ≤ 31 → 0 < x → 0 ≤ pc n x) (hz : 0 < spd.gz) (hn : 0 < spd.gn) (hE : E ≤ 38)
    {q : Preeq K} {i j : Nat} (hi : i < 6) (hj : j < 6) (hq : Composite F pc spd E q i j) :
    0 ≤ lambdaPlusZ q (confAt i j) ∧ 0 ≤ lambdaPlusN q (confAt i j) := by
  have ho := omegaTotal_nonneg hF hpc hz hn hE hi hj hq
  have P := fun c top (hc : 0 ≤ c) ew ep er h1 h2 h3 hne =>
    piece_nonneg hF hpc hz hn hE hq c top hc ew ep er h1 h2 h3 hne
  have s1 : ∀ a b c d : Int, a ≤ 2 → b ≤ 2 → c ≤ 2 → d ≤ 2 → 0 ≤ a → 0 ≤ b → 0 ≤ c → 0 ≤ d → InTable ⟨a, b, c, d⟩ := by
    intro a b c d _ _ _ _ _ _ _ _; unfold InTable; refine ⟨?_, ?_, ?_, ?_⟩ <;> simp only [] <;> omega
  have r : ∀ a b c d : Int, a ≤ 0 → b ≤ 0 → c ≤ 0 → d ≤ 0 → InTable ((confAt i j).add a b c d) := by
    intro a b c d _ _ _ _; unfold InTable confAt Exconf.add; refine ⟨?_, ?_, ?_, ?_⟩ <;> simp only [] <;> omega
  have e : ∀ a b c d : Int, a + b + c + d = -1 →
      ((confAt i j).add a b c d).zp + ((confAt i j).add a b c d).zh + ((confAt i j).add a b c d).np
        + ((confAt i j).add a b c d).nh ≠ 1 := by
    intro a b c d _; unfold confAt Exconf.add; simp only []; omega
  constructor
  · unfold lambdaPlusZ
    refine div_nonneg (add_nonneg (add_nonneg (add_nonneg ?_ ?_) ?_) ?_) ho
    · exact P _ _ hq.czz _ _ _ (s1 _ _ _ _ (by decide) (by decide) (by decide) (by decide) (by decide) (by decide) (by decide) (by decide)) (s1 _ _ _ _ (by decide) (by decide) (by decide) (by decide) (by decide) (by decide) (by decide) (by decide)) (r _ _ _ _ (by decide) (by decide) (by decide) (by decide)) (e _ _ _ _ (by decide))
    · exact P _ _ hq.czz _ _ _ (s1 _ _ _ _ (by decide) (by decide) (by decide) (by decide) (by decide) (by decide) (by decide) (by decide)) (s1 _ _ _ _ (by decide) (by decide) (by decide) (by decide) (by decide) (by decide) (by decide) (by decide)) (r _ _ _ _ (by decide) (by decide) (by decide) (by decide)) (e _ _ _ _ (by decide))
    · exact P _ _ hq.cnz _ _ _ (s1 _ _ _ _ (by decide) (by decide) (by decide) (by decide) (by decide) (by decide) (by decide) (by decide)) (s1 _ _ _ _ (by decide) (by decide) (by decide) (by decide) (by decide) (by decide) (by decide) (by decide)) (r _ _ _ _ (by decide) (by decide) (by decide) (by decide)) (e _ _ _ _ (by decide))
    · exact P _ _ hq.cnz _ _ _ (s1 _ _ _ _ (by decide) (by decide) (by decide) (by decide) (by decide) (by decide) (by decide) (by decide)) (s1 _ _ _ _ (by decide) (by decide) (by decide) (by decide) (by decide) (by decide) (by decide) (by decide)) (r _ _ _ _ (by decide) (by decide) (by decide) (by decide)) (e _ _ _ _ (by decide))
  · unfold lambdaPlusN
    refine div_nonneg (add_nonneg (add_nonneg (add_nonneg ?_ ?_) ?_) ?_) ho
    · exact P _ _ hq.cnn _ _ _ (s1 _ _ _ _ (by decide) (by decide) (by decide) (by decide) (by decide) (by decide) (by decide) (by decide)) (s1 _ _ _ _ (by decide) (by decide) (by decide) (by decide) (by decide) (by decide) (by decide) (by decide)) (r _ _ _ _ (by decide) (by decide) (by decide) (by decide)) (e _ _ _ _ (by decide))
    · exact P _ _ hq.cnn _ _ _ (s1 _ _ _ _ (by decide) (by decide) (by decide) (by decide) (by decide) (by decide) (by decide) (by decide)) (s1 _ _ _ _ (by decide) (by decide) (by decide) (by decide) (by decide) (by decide) (by decide) (by decide)) (r _ _ _ _ (by decide) (by decide) (by decide) (by decide)) (e _ _ _ _ (by decide))
    · exact P _ _ hq.czn _ _ _ (s1 _ _ _ _ (by decide) (by decide) (by decide) (by decide) (by decide) (by decide) (by decide) (by decide)) (s1 _ _ _ _ (by decide) (by decide) (by decide) (by decide) (by decide) (by decide) (by decide) (by decide)) (r _ _ _ _ (by decide) (by decide) (by decide) (by decide)) (e _ _ _ _ (by decide))
    · exact P _ _ hq.czn _ _ _ (s1 _ _ _ _ (by decide) (by decide) (by decide) (by decide) (by decide) (by decide) (by decide) (by decide)) (s1 _ _ _ _ (by decide) (by decide) (by decide) (by decide) (by decide) (by decide) (by decide) (by decide)) (r _ _ _ _ (by decide) (by decide) (by decide) (by decide)) (e _ _ _ _ (by decide))

theorem zero_nonneg (hF : LibM F) (hpc : ∀ n x, 1 ≤ n → n ≤ 31 → 0 < x → 0 ≤ pc n x) (hz : 0 < spd.gz) (hn : 0 < spd.gn) (hE : E ≤ 38)
    {q : Preeq K} {i j : Nat} (hi : i < 6) (hj : j < 6) (hq : Composite F pc spd E q i j) (h0 : q.omegaTotal ≠ 0) :
    0 ≤ lambdaZeroZ q (confAt i j) ∧ 0 ≤ lambdaZeroN q (confAt i j) := by
  have ho := omegaTotal_nonneg hF hpc hz hn hE hi hj hq
  obtain ⟨f1, _⟩ := composite_facts hF hpc hz hn hE hq
  have top := stateDensity_above pc hpc spd E _ (small_confAt hi hj) _ hq.omegaTotal h0
  have hid : (confAt i j).add 0 0 0 0 = confAt i j := by simp [Exconf.add]
  have s1 : ∀ a b c d : Int, a ≤ 2 → b ≤ 2 → c ≤ 2 → d ≤ 2 → InTable ⟨a, b, c, d⟩ := by
    intro a b c d _ _ _ _; unfold InTable; refine ⟨?_, ?_, ?_, ?_⟩ <;> simp only [] <;> omega
  have r : ∀ a b c d : Int, a ≤ 0 → b ≤ 0 → c ≤ 0 → d ≤ 0 → InTable ((confAt i j).add a b c d) := by
    intro a b c d _ _ _ _; unfold InTable confAt Exconf.add; refine ⟨?_, ?_, ?_, ?_⟩ <;> simp only [] <;> omega
  constructor
  · unfold lambdaZeroZ
    refine div_nonneg ?_ ho
    rw [hid, hq.total, hq.pauli (confAt i j)]
    refine simpson_nonneg _ _ _ _ hq.czn (by linarith) fun x => f1 x _ _ _ ?_ ?_ ?_
    · exact s1 _ _ _ _ (by decide) (by decide) (by decide) (by decide)
    · exact s1 _ _ _ _ (by decide) (by decide) (by decide) (by decide)
    · exact r _ _ _ _ (by decide) (by decide) (by decide) (by decide)
  · unfold lambdaZeroN
    refine div_nonneg ?_ ho
    rw [hid, hq.total, hq.pauli (confAt i j)]
    refine simpson_nonneg _ _ _ _ hq.cnz (by linarith) fun x => f1 x _ _ _ ?_ ?_ ?_
    · exact s1 _ _ _ _ (by decide) (by decide) (by decide) (by decide)
    · exact s1 _ _ _ _ (by decide) (by decide) (by decide) (by decide)
    · exact r _ _ _ _ (by decide) (by decide) (by decide) (by decide)

theorem lifetimes_nonneg (a b c d w : K) :
    0 ≤ (lifetimes a b c d w).1 ∧ 0 ≤ (lifetimes a b c d w).2 := by
  unfold lifetimes
  constructor
  · show 0 ≤ (if 0 < a + b + c + d + w then 1 / (a + b + c + d + w) else 0)
    split
    · positivity
    · exact le_rfl
  · show 0 ≤ (if 0 < a + b + w then 1 / (a + b + w) else 0)
    split
    · positivity
    · exact le_rfl

theorem lambdaPlusOne_nonneg (pi2 E top own other g g' m m' well : K) (h1 : 0 ≤ pi2) (h2 : 0 ≤ own) (h3 : 0 ≤ other)
    (h4 : 0 ≤ g) (h5 : 0 ≤ g') (h6 : 0 ≤ m) (h7 : 0 ≤ m') (h8 : 0 ≤ well) :
    0 ≤ lambdaPlusOne pi2 E top own other g g' m m' well := by
  unfold lambdaPlusOne
  simp only []
  split
  · positivity
  · exact le_rfl

theorem ratesOf_nonneg (hF : LibM F) (hpc : ∀ n x, 1 ≤ n → n ≤ 31 → 0 < x → 0 ≤ pc n x) (hz : 0 < spd.gz) (hn : 0 < spd.gn) (hE : E ≤ 38)
    {q : Nat → Nat → Preeq K} {lz ln : K} {wk : Nat → Nat → K}
    (hq : ∀ i j, i < 6 → j < 6 → Composite F pc spd E (q i j) i j) (hlz : 0 ≤ lz) (hln : 0 ≤ ln) : NonNeg (ratesOf q lz ln wk) := by
  have z1 : ∀ i j, i < 6 → j < 6 → 0 ≤ plusZ (q i j) lz (confAt i j) := by
    intro i j hi hj
    unfold plusZ
    split
    · exact hlz
    · exact (plus_nonneg hF hpc hz hn hE hi hj (hq i j hi hj)).1
  have z2 : ∀ i j, i < 6 → j < 6 → 0 ≤ plusN (q i j) ln (confAt i j) := by
    intro i j hi hj
    unfold plusN
    split
    · exact hln
    · exact (plus_nonneg hF hpc hz hn hE hi hj (hq i j hi hj)).2
  have op : ∀ (i j : Nat) (v : K), ((q i j).omegaTotal ≠ 0 → 0 ≤ v) → 0 ≤ (if (q i j).omegaTotal = 0 then 0 else v) := by
    intro i j v h
    by_cases c : (q i j).omegaTotal = 0
    · rw [if_pos c]
    · rw [if_neg c]; exact h c
  refine ⟨?_, ?_, ?_, ?_, ?_, ?_⟩ <;> intro i j hi hj <;> refine op i j _ fun c => ?_
  · exact (lifetimes_nonneg _ _ _ _ _).1
  · exact (lifetimes_nonneg _ _ _ _ _).2
  · exact z1 i j hi hj
  · exact z2 i j hi hj
  · exact (zero_nonneg hF hpc hz hn hE hi hj (hq i j hi hj) c).1
  · exact (zero_nonneg hF hpc hz hn hE hi hj (hq i j hi hj) c).2

/-! ### Simpson's rule -/

/-- On a constant the code's sum weighs the end points without the matrix element. -/
theorem simpson_const (c e1 e2 a : K) : simpson c e1 e2 (fun _ => a) = a * (e2 - e1) * (2 + 298 * c) / 300 := by
  unfold simpson
  simp only []
  have : ((List.range' 1 99).map fun i : Nat => (if i % 2 = 0 then 2 * ((e2 - e1) / 100 / 3) else 4 * ((e2 - e1) / 100 / 3)) * c * a).sum
      = 298 * ((e2 - e1) / 100 / 3) * c * a := by
    simp only [List.range', List.map_cons, List.map_nil, List.sum_cons, List.sum_nil]
    norm_num
    ring
  rw [this]; ring

/-! ### Spectra -/

theorem sum_div (l : List K) (s : K) : (l.map (· / s)).sum = l.sum / s := by
  induction l with
  | nil => simp
  | cons a l ih => rw [List.map_cons, List.sum_cons, List.sum_cons, ih]; ring

theorem excNormalise_spec (sp : List K) (h : ∀ x ∈ sp, 0 ≤ x) :
    (∀ x ∈ excNormalise sp, 0 ≤ x) ∧ (excNormalise sp).length = sp.length ∧
    (((excNormalise sp).sum = 1 ∧ ∀ (k : Nat) v, sp[k]? = some v → (excNormalise sp)[k]? = some (v / sp.sum)) ∨
      (excNormalise sp = sp ∧ ∀ x ∈ sp, x = 0)) := by
  unfold excNormalise
  simp only []
  by_cases c : 0 < sp.sum
  · rw [if_pos c]
    refine ⟨?_, by simp, Or.inl ⟨?_, ?_⟩⟩
    · intro x hx
      obtain ⟨y, hy, rfl⟩ := List.mem_map.1 hx
      exact div_nonneg (h y hy) c.le
    · rw [sum_div, div_self (ne_of_gt c)]
    · intro k v hk
      rw [List.getElem?_map, hk]; rfl
  · rw [if_neg c]
    refine ⟨h, rfl, Or.inr ⟨rfl, ?_⟩⟩
    intro x hx
    by_contra hne
    have : 0 < x := lt_of_le_of_ne (h x hx) (Ne.symm hne)
    exact c (lt_of_lt_of_le this (List.single_le_sum h x hx))

theorem evapValue_nonneg (e s r : K) (hs : 0 ≤ s) (hr : 0 ≤ r) : 0 ≤ evapValue e s r := by
  unfold evapValue
  split
  · rename_i he; positivity
  · exact le_rfl

end CGMF.Exc

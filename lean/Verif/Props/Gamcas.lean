import Verif.Proofs.Gamcas
import Mathlib.Data.Rat.Floor

/-!
# Deterministic gamma cascade: C32
-/

set_option linter.unusedSectionVars false

namespace CGMF.Props

open CGMF.Gamcas

variable {K : Type} [Field K] [LinearOrder K] [IsStrictOrderedRing K]

/-- Population of level `i` in a table. -/
def popAt (xs : List K) (i : Nat) : K := xs.getD i 0

/-- The levels `1..n` exist, decay only to lower levels, and every photon energy is either not binned or
falls into one of the `N` bins. -/
structure Cascading (bin : K → Option Nat) (N : Nat) (lev : List (Level K)) (n : Nat) : Prop where
  exists_ : n < lev.length
  down : ∀ (i : Nat) (l : Level K), 0 < i → i ≤ n → lev[i]? = some l → ∀ b ∈ l.branches, b.fstate < i
  bins : ∀ (i : Nat) (l l1 : Level K) (k : Nat), 0 < i → i ≤ n → lev[i]? = some l → ∀ b ∈ l.branches,
    lev[b.fstate]? = some l1 → bin (l.energy - l1.energy) = some k → k < N

theorem Cascading.downOf {bin : K → Option Nat} {N : Nat} {lev : List (Level K)} {n : Nat}
    (h : Cascading bin N lev n) : ∀ i, 0 < i → i ≤ n → ∀ b ∈ branchesOf lev i, b.fstate < i := by
  intro i h1 h2 b hb
  have hi : i < lev.length := by have := h.exists_; omega
  refine h.down i lev[i] h1 h2 (List.getElem?_eq_getElem hi) b ?_
  simpa [branchesOf, hi] using hb

theorem Cascading.binOf {bin : K → Option Nat} {N : Nat} {lev : List (Level K)} {n : Nat}
    (h : Cascading bin N lev n) : ∀ i, 0 < i → i ≤ n → ∀ b ∈ branchesOf lev i, ∀ k,
      bin (energyOf lev i - energyOf lev b.fstate) = some k → k < N := by
  intro i h1 h2 b hb k hk
  have hi : i < lev.length := by have := h.exists_; omega
  have hlt := h.downOf i h1 h2 b hb
  have hf : b.fstate < lev.length := by omega
  refine h.bins i lev[i] lev[b.fstate] k h1 h2 (List.getElem?_eq_getElem hi) b
    (by simpa [branchesOf, hi] using hb) (List.getElem?_eq_getElem hf) ?_
  simpa [energyOf, hi, hf] using hk

/-- **C32.** The deterministic cascade completes, and the final populations are the cumulative feedings:
each level holds its initial population plus, over all branches of the excited levels `1..n`, the
branching ratio times the feeding of the decaying level. -/
theorem C32_feeding (ic : Bool) (bin : K → Option Nat) (lev : List (Level K)) (n : Nat) (st : St K)
    (hc : Cascading bin st.spc.length lev n) (hp : lev.length ≤ st.lpop.length) :
    ∃ st', cascade ic bin lev n st = .ok st' ∧
      ∀ j, popAt st'.lpop j = popAt st.lpop j +
        ∑ i ∈ Finset.range n, ((lev[i + 1]?.elim [] (·.branches)).map fun b =>
          if b.fstate = j then popAt st'.lpop (i + 1) * b.branch else 0).sum := by
  obtain ⟨st', h1, _, _, h4, _⟩ := cascade_spec ic bin lev n st hc.exists_ (by have := hc.exists_; omega)
    hc.downOf hc.binOf
  refine ⟨st', h1, ?_⟩
  intro j
  unfold popAt
  rw [h4 j]
  rfl

/-- **C32.** The population is conserved: when the branching ratios of every level add up to one, the
ground state ends with the total initial population of the levels involved. -/
theorem C32_conserved (ic : Bool) (bin : K → Option Nat) (lev : List (Level K)) (n : Nat) (st : St K)
    (hc : Cascading bin st.spc.length lev n) (hp : lev.length ≤ st.lpop.length)
    (hone : ∀ (i : Nat) (l : Level K), 0 < i → i ≤ n → lev[i]? = some l → (l.branches.map (·.branch)).sum = 1) :
    ∃ st', cascade ic bin lev n st = .ok st' ∧
      popAt st'.lpop 0 = ∑ i ∈ Finset.range (n + 1), popAt st.lpop i := by
  obtain ⟨st', h1, _, _, h4, _⟩ := cascade_spec ic bin lev n st hc.exists_ (by have := hc.exists_; omega)
    hc.downOf hc.binOf
  refine ⟨st', h1, ?_⟩
  unfold popAt
  have hsum : ∑ j ∈ Finset.range (n + 1), st'.lpop.getD j 0 = ∑ j ∈ Finset.range (n + 1), st.lpop.getD j 0 +
      ∑ i ∈ Finset.range n, st'.lpop.getD (i + 1) 0 := by
    rw [Finset.sum_congr rfl (fun j _ => h4 j), Finset.sum_add_distrib, Finset.sum_comm]
    congr 1
    refine Finset.sum_congr rfl ?_
    intro i hi
    rw [Finset.mem_range] at hi
    have hil : i + 1 < lev.length := by have := hc.exists_; omega
    rw [sum_inflow _ _ _ (fun b hb => by
      have := hc.downOf (i + 1) (by omega) (by omega) b hb
      omega)]
    have : ((branchesOf lev (i + 1)).map (·.branch)).sum = 1 := by
      have := hone (i + 1) lev[i + 1] (by omega) (by omega) (List.getElem?_eq_getElem hil)
      simpa [branchesOf, hil] using this
    rw [this, mul_one]
  rw [Finset.sum_range_succ' (fun j => st'.lpop.getD j 0)] at hsum
  linarith

/-- **C32.** Each spectrum bin gains exactly the photon intensity (population transferred, times the
photon fraction when internal conversion is on) of the transitions whose energy falls into it. -/
theorem C32_spectrum (ic : Bool) (bin : K → Option Nat) (lev : List (Level K)) (n : Nat) (st : St K)
    (hc : Cascading bin st.spc.length lev n) (hp : lev.length ≤ st.lpop.length) :
    ∃ st', cascade ic bin lev n st = .ok st' ∧ st'.spc.length = st.spc.length ∧
      ∀ k, popAt st'.spc k = popAt st.spc k +
        ∑ i ∈ Finset.range n, ((lev[i + 1]?.elim [] (·.branches)).map fun b =>
          if 0 < popAt st'.lpop (i + 1) * b.branch ∧
            bin (lev[i + 1]?.elim 0 (·.energy) - lev[b.fstate]?.elim 0 (·.energy)) = some k
          then (if ic then popAt st'.lpop (i + 1) * b.branch * b.gratio
            else popAt st'.lpop (i + 1) * b.branch) else 0).sum := by
  obtain ⟨st', h1, _, h3, _, h5⟩ := cascade_spec ic bin lev n st hc.exists_ (by have := hc.exists_; omega)
    hc.downOf hc.binOf
  refine ⟨st', h1, h3, ?_⟩
  intro k
  unfold popAt
  rw [h5 k]
  rfl

/-- **C32.** `specGammaDiscrete` (one level only): the populations of its daughters grow by the branching
ratio times its population, which is left as it is. -/
theorem C32_discrete (ic : Bool) (bin : K → Option Nat) (lev : List (Level K)) (i0 : Nat) (l : Level K)
    (hl : lev[i0]? = some l) (st : St K) (hp : lev.length ≤ st.lpop.length)
    (hb : ∀ b ∈ l.branches, b.fstate < i0)
    (hbin : ∀ b ∈ l.branches, ∀ (l1 : Level K) (k : Nat), lev[b.fstate]? = some l1 →
      bin (l.energy - l1.energy) = some k → k < st.spc.length) :
    ∃ st', discrete ic bin lev i0 st = .ok st' ∧
      (∀ j, popAt st'.lpop j = popAt st.lpop j +
        (l.branches.map fun b => if b.fstate = j then popAt st.lpop i0 * b.branch else 0).sum) ∧
      ∀ k, popAt st'.spc k = popAt st.spc k + (l.branches.map fun b =>
          if 0 < popAt st.lpop i0 * b.branch ∧
            bin (l.energy - lev[b.fstate]?.elim 0 (·.energy)) = some k
          then (if ic then popAt st.lpop i0 * b.branch * b.gratio else popAt st.lpop i0 * b.branch) else 0).sum := by
  have hi : i0 < lev.length := by
    by_contra hc
    rw [List.getElem?_eq_none (by omega)] at hl; cases hl
  have e : branchesOf lev i0 = l.branches := by simp [branchesOf, hl]
  have e2 : energyOf lev i0 = l.energy := by simp [energyOf, hl]
  obtain ⟨st', h1, _, _, h4, h5⟩ := discrete_spec ic bin lev i0 hi st (by omega) (by rw [e]; exact hb) (by
    rw [e, e2]
    intro b hb' k hk
    have hf : b.fstate < lev.length := by have := hb b hb'; omega
    refine hbin b hb' lev[b.fstate] k (List.getElem?_eq_getElem hf) ?_
    simpa [energyOf, hf] using hk)
  rw [e] at h4 h5
  refine ⟨st', h1, h4, ?_⟩
  intro k
  have := h5 k
  unfold photonsIn at this
  rw [e2] at this
  exact this

section Bins
variable [FloorRing K]

/-- **C32.** With bins not wider than 1 MeV every transition energy from 0 to the upper limit is binned, in
the bin whose centre is within half a width (up to the rounding constant). -/
theorem C32_bin (N : Nat) (eps e de : K) (heps : 0 < eps) (hde : 0 < de) (hde1 : de ≤ 1)
    (he : 0 ≤ e) (hN : e ≤ N * de) :
    ∃ k, findBin N eps e de = some k ∧ k ≤ N + ⌊eps + 1 / 2⌋.toNat ∧ |e - k * de| ≤ de / 2 + eps := by
  unfold findBin
  by_cases h1 : |e| ≤ eps
  · rw [if_pos h1]
    exact ⟨0, rfl, by omega, by rw [Nat.cast_zero, zero_mul, sub_zero]; linarith⟩
  rw [if_neg h1, if_neg (by push Not; exact ⟨he, hN⟩)]
  by_cases h2 : e < de * (1 / 2)
  · rw [if_pos h2]
    refine ⟨0, rfl, by omega, ?_⟩
    rw [Nat.cast_zero, zero_mul, sub_zero, abs_of_nonneg he]
    linarith
  rw [if_neg h2]
  simp only []
  have hx : (e + 1 / 2 * de) / de = e / de + 1 / 2 := by field_simp
  rw [hx]
  set x := e / de with hxdef
  have hxe : x * de = e := by rw [hxdef]; field_simp
  have hx0 : 0 ≤ x := div_nonneg he hde.le
  have hfl := Int.floor_le (x + 1 / 2 + eps)
  have hfl2 := Int.lt_floor_add_one (x + 1 / 2 + eps)
  have hk0 : 0 ≤ ⌊x + 1 / 2 + eps⌋ := Int.floor_nonneg.mpr (by linarith)
  set k := ⌊x + 1 / 2 + eps⌋ with hk
  have c1 : de * (k : K) ≤ e + 1 / 2 * de + eps := by
    have := mul_le_mul_of_nonneg_right hfl hde.le
    have h3 : eps * de ≤ eps := by nlinarith
    nlinarith
  have c2 : e + 1 / 2 * de < de * ((k : K) + 1) := by
    have := mul_lt_mul_of_pos_right hfl2 hde
    nlinarith
  rw [if_pos ⟨c1, c2⟩]
  have hcast : ((k.toNat : Nat) : K) = (k : K) := by
    have : ((k.toNat : Nat) : Int) = k := Int.toNat_of_nonneg hk0
    exact_mod_cast congrArg (fun z : Int => (z : K)) this
  refine ⟨k.toNat, rfl, ?_, ?_⟩
  · have hxN : x ≤ N := by rw [hxdef, div_le_iff₀ hde]; exact hN
    have : k ≤ N + ⌊eps + 1 / 2⌋ := by
      have h5 : k ≤ ⌊(N : K) + (eps + 1 / 2)⌋ := Int.floor_le_floor (by linarith)
      rwa [Int.floor_natCast_add] at h5
    omega
  · rw [hcast, abs_le]
    constructor
    · linarith
    · have := c2
      nlinarith

/-- **C32.** Below the upper limit by half a bin the index is inside the spectrum array. -/
theorem C32_bin_inside (N : Nat) (eps e de : K) (heps : 0 < eps) (hde : 0 < de) (hN0 : 0 < N)
    (hN : e < (N - 1 / 2 - eps) * de) (k : Nat) (h : findBin N eps e de = some k) : k < N := by
  unfold findBin at h
  by_cases h1 : |e| ≤ eps
  · rw [if_pos h1] at h; cases h; exact hN0
  rw [if_neg h1] at h
  by_cases h3 : e < 0 ∨ (N : K) * de < e
  · rw [if_pos h3] at h; cases h
  rw [if_neg h3] at h
  by_cases h2 : e < de * (1 / 2)
  · rw [if_pos h2] at h; cases h; exact hN0
  rw [if_neg h2] at h
  simp only [] at h
  split at h
  · cases h
    have hx : (e + 1 / 2 * de) / de + eps < N := by
      have : (e + 1 / 2 * de) / de = e / de + 1 / 2 := by field_simp
      rw [this]
      have : e / de < N - 1 / 2 - eps := by rw [div_lt_iff₀ hde]; exact hN
      linarith
    have : ⌊(e + 1 / 2 * de) / de + eps⌋ < (N : Int) := Int.floor_lt.mpr (by exact_mod_cast hx)
    omega
  · cases h

/-- **C32** (what fails). A transition energy exactly at the accepted upper limit gets the index one past
the end of the spectrum array: the cascade then writes out of bounds. -/
theorem C32_bin_overrun (N : Nat) (eps de : K) (heps : 0 < eps) (heps2 : eps < 1 / 2) (hde : 0 < de)
    (hN : eps < N * de) : findBin N eps (N * de) de = some N := by
  unfold findBin
  have h0 : (0 : K) ≤ N * de := by positivity
  have hN1 : 1 ≤ (N : K) := by
    have : N ≠ 0 := by rintro rfl; simp at hN; linarith
    exact_mod_cast Nat.one_le_iff_ne_zero.mpr this
  rw [if_neg (by rw [abs_of_nonneg h0]; linarith), if_neg (by push Not; exact ⟨h0, le_refl _⟩),
    if_neg (by push Not; nlinarith)]
  simp only []
  have hx : (N * de + 1 / 2 * de) / de + eps = N + (1 / 2 + eps) := by field_simp; ring
  have hf : ⌊(N * de + 1 / 2 * de) / de + eps⌋ = (N : Int) := by
    rw [hx, Int.floor_natCast_add, Int.floor_eq_zero_iff.mpr]
    · simp
    · exact ⟨by linarith, by linarith⟩
  rw [hf, if_pos]
  · simp
  · push_cast
    constructor
    · nlinarith
    · nlinarith

theorem C32_cascade_overrun (N : Nat) (eps de p : K) (heps : 0 < eps) (heps2 : eps < 1 / 2) (hde : 0 < de)
    (hN : eps < N * de) (hp : 0 < p) (spc : List K) (hs : spc.length = N) :
    cascade true (fun e => findBin N eps e de)
      [⟨0, 0, 1, 0, []⟩, ⟨N * de, 2, 1, 0, [⟨0, 1, 1⟩]⟩] 1 ⟨[0, p], spc, 0⟩ = .ub := by
  have hb := C32_bin_overrun N eps de heps heps2 hde hN
  have hub : readAt spc (N : Int) = .ub := by simp [readAt, hs]
  simp [cascade, discrete, branches, branchStep, readAt, writeAt, Res.bind, hp, hb]
  simp [hs]

end Bins

/-- Non-vacuity: three levels, populations 0, 1/2, 1/2; bins of one unit, ten of them. -/
def demoScheme : List (Level ℚ) :=
  [⟨0, 0, 1, 0, []⟩, ⟨1, 4, 1, 0, [⟨0, 1, 1⟩]⟩, ⟨3, 8, 1, 0, [⟨1, 3 / 4, 1⟩, ⟨0, 1 / 4, 1 / 2⟩]⟩]

def demoStart : St ℚ := ⟨[0, 1 / 2, 1 / 2, 0], [0, 0, 0, 0], 0⟩

example : Cascading (fun e => findBin 4 (1 / 10000) e 1) demoStart.spc.length demoScheme 2 := by
  refine ⟨by decide, ?_, ?_⟩
  · intro i l h1 h2 hl b hb
    match i, h1, h2 with
    | 1, _, _ => simp [demoScheme] at hl; subst hl; simp at hb; subst hb; decide
    | 2, _, _ => simp [demoScheme] at hl; subst hl; simp at hb; rcases hb with rfl | rfl <;> decide
  · intro i l l1 k h1 h2 hl b hb hl1 hk
    have h4 : l.energy - l1.energy < (4 - 1 / 2 - 1 / 10000) * 1 := by
      match i, h1, h2 with
      | 1, _, _ =>
        simp [demoScheme] at hl; subst hl; simp at hb; subst hb
        simp [demoScheme] at hl1; subst hl1; norm_num
      | 2, _, _ =>
        simp [demoScheme] at hl; subst hl; simp at hb
        rcases hb with rfl | rfl <;> (simp [demoScheme] at hl1; subst hl1; norm_num)
    exact C32_bin_inside 4 (1 / 10000) _ 1 (by norm_num) (by norm_num) (by norm_num) (by exact_mod_cast h4) k hk

example : cascade true (fun e => findBin 4 (1 / 10000) e 1) demoScheme 2 demoStart
    = .ok ⟨[1, 7 / 8, 1 / 2, 0], [0, 7 / 8, 3 / 8, 1 / 16], 3⟩ := by decide +kernel

end CGMF.Props

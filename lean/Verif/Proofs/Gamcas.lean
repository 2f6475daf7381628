import Verif.Model.Gamcas
import Verif.Proofs.Event
import Mathlib.Algebra.BigOperators.Group.Finset.Basic
import Mathlib.Algebra.BigOperators.Ring.Finset

set_option linter.unusedSectionVars false

namespace CGMF.Gamcas

open CGMF.Event

variable {K : Type} [Field K] [LinearOrder K] [IsStrictOrderedRing K]

/-- Photon intensity of a transfer. -/
def photon (ic : Bool) (p : K) (b : Branch K) : K := if ic then p * b.branch * b.gratio else p * b.branch

/-- Energy of a level. -/
def energyOf (lev : List (Level K)) (i : Nat) : K := lev[i]?.elim 0 (·.energy)

/-- Branches of a level. -/
def branchesOf (lev : List (Level K)) (i : Nat) : List (Branch K) := lev[i]?.elim [] (·.branches)

/-- Population transferred to level `j` from a level of population `p` through `bs`. -/
def inflow (bs : List (Branch K)) (p : K) (j : Nat) : K :=
  (bs.map fun b => if b.fstate = j then p * b.branch else 0).sum

/-- Photons put into bin `k` by a level `i` of population `p` through `bs`. -/
def photonsIn (ic : Bool) (bin : K → Option Nat) (lev : List (Level K)) (i : Nat) (bs : List (Branch K)) (p : K)
    (k : Nat) : K :=
  (bs.map fun b => if 0 < p * b.branch ∧ bin (energyOf lev i - energyOf lev b.fstate) = some k
    then photon ic p b else 0).sum

theorem getD_set (xs : List K) (i j : Nat) (v : K) (h : i < xs.length) :
    (xs.set i v).getD j 0 = if j = i then v else xs.getD j 0 := by
  simp only [List.getD_eq_getElem?_getD]
  by_cases hj : j = i
  · subst hj; simp [h]
  · rw [if_neg hj, List.getElem?_set_ne (Ne.symm hj)]

theorem getD_eq (xs : List K) (i : Nat) (h : i < xs.length) : xs.getD i 0 = xs[i] := by
  simp [List.getD_eq_getElem?_getD, h]

variable (ic : Bool) (bin : K → Option Nat) (lev : List (Level K))

theorem branchStep_spec (i0 : Nat) (b : Branch K) (st : St K) (hi : i0 < st.lpop.length) (hil : i0 < lev.length)
    (hb : b.fstate < i0)
    (hbin : ∀ k, bin (energyOf lev i0 - energyOf lev b.fstate) = some k → k < st.spc.length) :
    ∃ st', branchStep ic bin lev i0 b st = .ok st' ∧ st'.lpop.length = st.lpop.length ∧
      st'.spc.length = st.spc.length ∧
      (∀ j, st'.lpop.getD j 0 = st.lpop.getD j 0 + if b.fstate = j then st.lpop.getD i0 0 * b.branch else 0) ∧
      (∀ k, st'.spc.getD k 0 = st.spc.getD k 0 +
        if 0 < st.lpop.getD i0 0 * b.branch ∧ bin (energyOf lev i0 - energyOf lev b.fstate) = some k
        then photon ic (st.lpop.getD i0 0) b else 0) := by
  unfold branchStep
  have hf : b.fstate < st.lpop.length := by omega
  have hfl : b.fstate < lev.length := by omega
  rw [readAt_nat _ _ hi]
  simp only [Res.bind]
  rw [readAt_nat _ _ hf]
  simp only []
  rw [writeAt_nat _ _ _ hf]
  simp only []
  have e1 : st.lpop.getD i0 0 = st.lpop[i0] := getD_eq _ _ hi
  have e2 : st.lpop.getD b.fstate 0 = st.lpop[b.fstate] := getD_eq _ _ hf
  have hl : ∀ j, (st.lpop.set b.fstate (st.lpop[b.fstate] + st.lpop[i0] * b.branch)).getD j 0
      = st.lpop.getD j 0 + if b.fstate = j then st.lpop.getD i0 0 * b.branch else 0 := by
    intro j
    rw [getD_set _ _ _ _ hf]
    by_cases hj : j = b.fstate
    · subst hj; rw [if_pos rfl, if_pos rfl, e1, e2]
    · rw [if_neg hj, if_neg (Ne.symm hj), add_zero]
  by_cases hp : 0 < st.lpop[i0] * b.branch
  · rw [if_pos hp, readAt_nat _ _ hil]
    simp only []
    rw [readAt_nat _ _ hfl]
    simp only []
    have he : lev[i0].energy - lev[b.fstate].energy = energyOf lev i0 - energyOf lev b.fstate := by
      simp [energyOf, hil, hfl]
    rw [he]
    cases hc : bin (energyOf lev i0 - energyOf lev b.fstate) with
    | none =>
      refine ⟨_, rfl, by simp, rfl, hl, ?_⟩
      intro k; simp
    | some k0 =>
      have hk := hbin k0 hc
      simp only []
      rw [readAt_nat _ _ hk]
      simp only []
      rw [writeAt_nat _ _ _ hk]
      refine ⟨_, rfl, by simp, by simp, hl, ?_⟩
      intro k
      simp only []
      rw [getD_set _ _ _ _ hk, e1]
      by_cases hkk : k = k0
      · subst hkk
        simp only [if_true, and_true, if_pos hp]
        rw [getD_eq _ _ hk]; rfl
      · rw [if_neg hkk, if_neg (by rintro ⟨_, h⟩; cases h; exact hkk rfl), add_zero]
  · rw [if_neg hp]
    refine ⟨_, rfl, by simp, rfl, hl, ?_⟩
    intro k
    rw [if_neg (by rw [e1]; rintro ⟨h, _⟩; exact hp h), add_zero]

theorem branches_spec (i0 : Nat) (hil : i0 < lev.length) (bs : List (Branch K)) : ∀ (st : St K),
    i0 < st.lpop.length → (∀ b ∈ bs, b.fstate < i0) →
    (∀ b ∈ bs, ∀ k, bin (energyOf lev i0 - energyOf lev b.fstate) = some k → k < st.spc.length) →
    ∃ st', branches ic bin lev i0 bs st = .ok st' ∧ st'.lpop.length = st.lpop.length ∧
      st'.spc.length = st.spc.length ∧
      (∀ j, st'.lpop.getD j 0 = st.lpop.getD j 0 + inflow bs (st.lpop.getD i0 0) j) ∧
      (∀ k, st'.spc.getD k 0 = st.spc.getD k 0 + photonsIn ic bin lev i0 bs (st.lpop.getD i0 0) k) := by
  induction bs with
  | nil => intro st _ _ _; exact ⟨st, rfl, rfl, rfl, by simp [inflow], by simp [photonsIn]⟩
  | cons b bs ih =>
    intro st hi hb hbin
    obtain ⟨st1, a1, a2, a3, a4, a5⟩ := branchStep_spec ic bin lev i0 b st hi hil (hb b (by simp))
      (hbin b (by simp))
    obtain ⟨st2, b1, b2, b3, b4, b5⟩ := ih st1 (by omega) (fun c hc => hb c (by simp [hc]))
      (fun c hc k hk => by rw [a3]; exact hbin c (by simp [hc]) k hk)
    have hsame : st1.lpop.getD i0 0 = st.lpop.getD i0 0 := by
      rw [a4 i0, if_neg (by have := hb b (by simp); omega), add_zero]
    refine ⟨st2, ?_, by omega, by omega, ?_, ?_⟩
    · unfold branches
      rw [a1]; exact b1
    · intro j
      rw [b4, a4, hsame, inflow, inflow, List.map_cons, List.sum_cons]
      ring
    · intro k
      rw [b5, a5, hsame, photonsIn, photonsIn, List.map_cons, List.sum_cons]
      ring

theorem discrete_spec (i0 : Nat) (hil : i0 < lev.length) (st : St K) (hi : i0 < st.lpop.length)
    (hb : ∀ b ∈ branchesOf lev i0, b.fstate < i0)
    (hbin : ∀ b ∈ branchesOf lev i0, ∀ k, bin (energyOf lev i0 - energyOf lev b.fstate) = some k →
      k < st.spc.length) :
    ∃ st', discrete ic bin lev i0 st = .ok st' ∧ st'.lpop.length = st.lpop.length ∧
      st'.spc.length = st.spc.length ∧
      (∀ j, st'.lpop.getD j 0 = st.lpop.getD j 0 + inflow (branchesOf lev i0) (st.lpop.getD i0 0) j) ∧
      (∀ k, st'.spc.getD k 0 = st.spc.getD k 0 +
        photonsIn ic bin lev i0 (branchesOf lev i0) (st.lpop.getD i0 0) k) := by
  have e : branchesOf lev i0 = lev[i0].branches := by simp [branchesOf, hil]
  unfold discrete
  rw [readAt_nat _ _ hil]
  rw [e] at hb hbin ⊢
  exact branches_spec ic bin lev i0 hil _ st hi hb hbin

theorem inflow_zero {bs : List (Branch K)} {p : K} {j : Nat} (h : ∀ b ∈ bs, b.fstate ≠ j) : inflow bs p j = 0 := by
  unfold inflow
  refine List.sum_eq_zero ?_
  intro x hx
  obtain ⟨b, hb, rfl⟩ := List.mem_map.mp hx
  rw [if_neg (h b hb)]

theorem cascade_spec (n : Nat) : ∀ (st : St K), n < lev.length → n < st.lpop.length →
    (∀ i, 0 < i → i ≤ n → ∀ b ∈ branchesOf lev i, b.fstate < i) →
    (∀ i, 0 < i → i ≤ n → ∀ b ∈ branchesOf lev i, ∀ k,
      bin (energyOf lev i - energyOf lev b.fstate) = some k → k < st.spc.length) →
    ∃ st', cascade ic bin lev n st = .ok st' ∧ st'.lpop.length = st.lpop.length ∧
      st'.spc.length = st.spc.length ∧
      (∀ j, st'.lpop.getD j 0 = st.lpop.getD j 0 +
        ∑ i ∈ Finset.range n, inflow (branchesOf lev (i + 1)) (st'.lpop.getD (i + 1) 0) j) ∧
      (∀ k, st'.spc.getD k 0 = st.spc.getD k 0 +
        ∑ i ∈ Finset.range n, photonsIn ic bin lev (i + 1) (branchesOf lev (i + 1)) (st'.lpop.getD (i + 1) 0) k) := by
  induction n with
  | zero => intro st _ _ _ _; exact ⟨st, rfl, rfl, rfl, by simp, by simp⟩
  | succ n ih =>
    intro st hl hp hb hbin
    obtain ⟨st1, a1, a2, a3, a4, a5⟩ := discrete_spec ic bin lev (n + 1) hl st hp (hb (n + 1) (by omega) (le_refl _))
      (hbin (n + 1) (by omega) (le_refl _))
    obtain ⟨st2, b1, b2, b3, b4, b5⟩ := ih st1 (by omega) (by omega) (fun i h1 h2 => hb i h1 (by omega))
      (fun i h1 h2 b hb' k hk => by rw [a3]; exact hbin i h1 (by omega) b hb' k hk)
    have hself : st2.lpop.getD (n + 1) 0 = st.lpop.getD (n + 1) 0 := by
      rw [b4, a4, inflow_zero (fun b hb' => by
        have := hb (n + 1) (by omega) (le_refl _) b hb'
        omega), Finset.sum_eq_zero, add_zero, add_zero]
      intro i hi
      rw [Finset.mem_range] at hi
      exact inflow_zero fun b hb' => by
        have := hb (i + 1) (by omega) (by omega) b hb'
        omega
    refine ⟨st2, ?_, by omega, by omega, ?_, ?_⟩
    · unfold cascade
      rw [a1]; exact b1
    · intro j
      rw [Finset.sum_range_succ, hself, b4, a4]
      ring
    · intro k
      rw [Finset.sum_range_succ, hself, b5, a5]
      ring

theorem sum_inflow (bs : List (Branch K)) (p : K) (m : Nat) (h : ∀ b ∈ bs, b.fstate < m) :
    ∑ j ∈ Finset.range m, inflow bs p j = p * (bs.map (·.branch)).sum := by
  induction bs with
  | nil => simp [inflow]
  | cons b bs ih =>
    have : ∀ j, inflow (b :: bs) p j = (if b.fstate = j then p * b.branch else 0) + inflow bs p j := by
      intro j; simp [inflow]
    simp only [this]
    rw [Finset.sum_add_distrib, ih (fun c hc => h c (by simp [hc])), Finset.sum_ite_eq]
    rw [if_pos (by simpa using h b (by simp))]
    simp
    ring

end CGMF.Gamcas

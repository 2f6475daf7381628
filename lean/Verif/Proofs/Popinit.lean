import Verif.Model.Popinit
import Verif.Proofs.Select

/-! # Lemmas about initial populations and the start of the decay -/

set_option linter.unusedSectionVars false

namespace CGMF.MC

open CGMF.Grid CGMF.HF

variable {K : Type} [Field K] [LinearOrder K] [IsStrictOrderedRing K]

theorem addSingle_noPop (maxJ : Nat) (jint p0 : Int) :
    addSingle jint p0 (noPop maxJ) = (popSingle maxJ jint p0 : List (K × K)) := by
  apply List.ext_getElem?
  intro i
  unfold addSingle noPop popSingle
  rw [List.getElem?_mapIdx, List.getElem?_map, List.getElem?_replicate]
  by_cases h : i < maxJ
  · rw [if_pos h, List.getElem?_range h]
    simp
  · rw [if_neg h, List.getElem?_eq_none (by simpa using h)]
    rfl

theorem total_single (maxJ : Nat) (jint p0 : Int) :
    ((popSingle (K := K) maxJ jint p0).map fun x => x.1 + x.2).sum =
      if 0 ≤ jint ∧ jint < maxJ then 1 else 0 := by
  unfold popSingle
  rw [List.map_map]
  by_cases h : 0 ≤ jint
  · rw [sum_single (a := jint.toNat) List.nodup_range]
    · have : (jint.toNat ∈ List.range maxJ) ↔ (0 ≤ jint ∧ jint < maxJ) := by
        rw [List.mem_range]; omega
      simp only [this]
      apply if_congr Iff.rfl _ rfl
      have : ((jint.toNat : Nat) : Int) = jint := by omega
      simp only [Function.comp, this, if_true]
      split <;> simp
    · intro x _ hx
      have : ¬ (x : Int) = jint := by omega
      simp [this]
  · have hz : ¬ (0 ≤ jint ∧ jint < (maxJ : Int)) := fun h' => h h'.1
    rw [if_neg hz]
    apply List.sum_eq_zero
    intro x hx
    obtain ⟨j, -, rfl⟩ := List.mem_map.mp hx
    have : ¬ (j : Int) = jint := by omega
    simp [this]

theorem fixedStart_exact (jint p0 : Int) : ∀ (n j : Nat), fixedStart ((List.range' j n).map fun j : Nat =>
      if (j : Int) = jint then (if p0 < 0 then ((0 : K), (1 : K)) else (1, 0)) else (0, 0)) j =
    if (j : Int) ≤ jint ∧ jint < j + n then some (if p0 < 0 then -1 else 1, jint) else none := by
  intro n
  induction n with
  | zero => intro j; simp [fixedStart]
  | succ n ih =>
    intro j
    rw [List.range'_succ, List.map_cons]
    by_cases hj : (j : Int) = jint
    · have hz : (j : Int) ≤ jint ∧ jint < j + ((n + 1 : Nat) : Int) := by omega
      rw [if_pos hj, if_pos hz]
      by_cases hp : p0 < 0
      · simp [hp, fixedStart, hj]
      · simp [hp, fixedStart, hj]
    · rw [if_neg hj]
      simp only [fixedStart, lt_irrefl, if_false]
      rw [ih (j + 1)]
      apply if_congr _ rfl rfl
      push_cast
      omega

theorem fixedStart_one (maxJ : Nat) (jint p0 : Int) : fixedStart (popSingle (K := K) maxJ jint p0) 0 =
    if 0 ≤ jint ∧ jint < maxJ then some (if p0 < 0 then -1 else 1, jint) else none := by
  have := fixedStart_exact (K := K) jint p0 maxJ 0
  unfold popSingle
  rw [List.range_eq_range']
  rw [this]
  simp

theorem addSingle_total {jint p0 : Int} {pop : List (K × K)} (h : ∀ x ∈ pop, if p0 < 0 then x.1 = 0 else x.2 = 0) :
    ((addSingle jint p0 pop).map fun x => x.1 + x.2).sum = (pop.map fun x => x.1 + x.2).sum +
      (if 0 ≤ jint ∧ jint < pop.length then 1 else 0) ∧
    (∀ x ∈ addSingle jint p0 pop, if p0 < 0 then x.1 = 0 else x.2 = 0) ∧
    (addSingle jint p0 pop).length = pop.length ∧
    ((∀ x ∈ pop, 0 ≤ x.1 ∧ 0 ≤ x.2) → ∀ x ∈ addSingle jint p0 pop, 0 ≤ x.1 ∧ 0 ≤ x.2) := by
  refine ⟨?_, ?_, by simp [addSingle], ?_⟩
  · induction pop using List.reverseRecOn with
    | nil =>
      simp only [addSingle, List.mapIdx_nil, List.map_nil, List.sum_nil, List.length_nil, zero_add]
      rw [if_neg (by omega)]
    | append_singleton l a ih =>
      have ih' := ih (fun x hx => h x (List.mem_append_left _ hx))
      have ha := h a (by simp)
      unfold addSingle at ih' ⊢
      rw [List.mapIdx_append, List.map_append, List.sum_append, ih', List.map_append, List.sum_append]
      simp only [List.mapIdx_cons, List.mapIdx_nil, List.map_cons, List.map_nil, List.sum_cons, List.sum_nil,
        add_zero, zero_add, List.length_append, List.length_singleton]
      by_cases hj : (l.length : Int) = jint
      · have hz : ¬ (0 ≤ jint ∧ jint < (l.length : Int)) := by omega
        have hz' : 0 ≤ jint ∧ jint < ((l.length + 1 : Nat) : Int) := by omega
        rw [if_pos hj, if_neg hz, if_pos hz']
        by_cases hp : p0 < 0
        · rw [if_pos hp] at ha
          simp only [if_pos hp, ha]; ring
        · rw [if_neg hp] at ha
          simp only [if_neg hp, ha]; ring
      · rw [if_neg hj]
        have : (0 ≤ jint ∧ jint < (l.length : Int)) ↔ (0 ≤ jint ∧ jint < ((l.length + 1 : Nat) : Int)) := by omega
        rw [if_congr this rfl rfl]
        ring
  · intro x hx
    unfold addSingle at hx
    obtain ⟨i, hi, rfl⟩ := List.mem_mapIdx.mp hx
    have := h _ (List.getElem_mem hi)
    by_cases hp : p0 < 0
    · rw [if_pos hp] at this
      simp only [if_pos hp]
      split <;> simp [this]
    · rw [if_neg hp] at this
      simp only [if_neg hp]
      split <;> simp [this]
  · intro hn x hx
    unfold addSingle at hx
    obtain ⟨i, hi, rfl⟩ := List.mem_mapIdx.mp hx
    have := hn _ (List.getElem_mem hi)
    split
    · split
      · exact ⟨le_rfl, by linarith [this.2]⟩
      · exact ⟨by linarith [this.1], le_rfl⟩
    · exact this

theorem div_total (m : K) (pop : List (K × K)) :
    ((divPop m pop).map fun x => x.1 + x.2).sum = (pop.map fun x => x.1 + x.2).sum / m := by
  induction pop with
  | nil => simp [divPop]
  | cons a l ih =>
    unfold divPop at ih ⊢
    simp only [List.map_cons, List.sum_cons, ih]
    ring

theorem levdenStop_spec {maxJ : Nat} {sd : Nat → K} {cut : K} {j : Nat} (h : levdenStop maxJ sd cut = some j) :
    j < maxJ ∧ 2 * sd j < cut ∧ 2 < j := by
  have h1 := List.find?_some h
  have h2 := List.mem_of_find?_eq_some h
  simp only [decide_eq_true_eq] at h1
  exact ⟨List.mem_range.mp h2, h1⟩

theorem levdenStop_le {maxJ : Nat} {sd : Nat → K} {cut : K} {j j0 : Nat} (h : levdenStop maxJ sd cut = some j)
    (h1 : 2 * sd j0 < cut) (h2 : 2 < j0) : j ≤ j0 := by
  by_contra hlt
  unfold levdenStop at h
  rw [List.find?_range_eq_some] at h
  have := h.2.2 j0 (by omega)
  simp only [Bool.not_eq_true', decide_eq_false_iff_not] at this
  exact this ⟨h1, h2⟩

theorem sum_range_ite {n m : Nat} (h : n ≤ m) (g : Nat → K) {f : Nat → K}
    (hf : ∀ j, j < m → f j = if j < n then g j else 0) : ((List.range m).map f).sum = ((List.range n).map g).sum := by
  induction m with
  | zero =>
    have : n = 0 := by omega
    subst this; rfl
  | succ m ih =>
    rw [List.range_succ, List.map_append, List.sum_append]
    by_cases hn : n ≤ m
    · rw [ih hn (fun j hj => hf j (by omega))]
      simp [hf m (by omega), hn]
    · have : n = m + 1 := by omega
      subst this
      rw [List.range_succ, List.map_append, List.sum_append]
      congr 1
      · congr 1
        apply List.map_congr_left
        intro j hj
        have := List.mem_range.mp hj
        rw [hf j (by omega), if_pos (by omega)]
      · simp [hf m (by omega)]

theorem pickE1_no_exit (p j : Int) : ∀ (ls : List (Level K)) (i : Nat) (xpr : K) (best : Option Nat) (s : List K),
    pickE1 p j ls i xpr best s ≠ .exit := by
  intro ls
  induction ls with
  | nil => intro i x b s; simp [pickE1]
  | cons a ls ih =>
    intro i x b s
    rw [pickE1]
    split
    · rw [Rnd.bind_run]
      cases s with
      | nil => simp [Rnd.draw]
      | cons r s =>
        rw [Rnd.draw_cons]
        simp only
        split <;> exact ih _ _ _ _
    · exact ih _ _ _ _

theorem forced_no_exit (ls : List (Level K)) (p j : Int) (s : List K) : forced ls p j s ≠ .exit := by
  unfold forced
  rw [Rnd.bind_run]
  have := pickE1_no_exit (K := K) p j ls 0 (-1) none s
  generalize pickE1 p j ls 0 (-1) none s = o at this
  rcases o with ⟨_ | i, s'⟩ | _ | _ | _
  · cases h : closest j ls 0 200 none <;> simp [Rnd.get, h]
  · simp
  · exact absurd rfl this
  · simp
  · simp

theorem bypass_no_exit (ls : List (Level K)) (p j : Int) (s : List K) : bypass ls p j s ≠ .exit := by
  unfold bypass
  rw [Rnd.bind_run]
  have := pickE1_no_exit (K := K) p j ls 0 (-1) none s
  generalize pickE1 p j ls 0 (-1) none s = o at this
  rcases o with ⟨_ | i, s'⟩ | _ | _ | _
  · cases h : closestLast j ls 0 2000 none <;> simp [Rnd.get, h]
  · simp
  · exact absurd rfl this
  · simp
  · simp

theorem nearest_spec (E : K) : ∀ (ls : List (Level K)) (i : Nat) (d : K) (k : Nat),
    (nearest E ls i d k = k ∧ ∀ l ∈ ls, d ≤ |E - l.energy|) ∨
    ∃ q l, nearest E ls i d k = i + q ∧ ls[q]? = some l ∧ |E - l.energy| < d ∧
      (∀ l' ∈ ls, |E - l.energy| ≤ |E - l'.energy|) ∧
      (∀ q' l', q' < q → ls[q']? = some l' → |E - l.energy| < |E - l'.energy|) := by
  intro ls
  induction ls with
  | nil => intro i d k; left; simp [nearest]
  | cons a ls ih =>
    intro i d k
    by_cases hc : |E - a.energy| < d
    · right
      simp only [nearest, if_pos hc]
      rcases ih (i + 1) |E - a.energy| i with ⟨h1, h2⟩ | ⟨q, l, h1, h2, h3, h4, h5⟩
      · refine ⟨0, a, by simpa using h1, rfl, hc, ?_, by omega⟩
        intro l' hl'
        rcases List.mem_cons.mp hl' with rfl | hl'
        · exact le_rfl
        · exact h2 l' hl'
      · refine ⟨q + 1, l, by omega, by simpa using h2, lt_trans h3 hc, ?_, ?_⟩
        · intro l' hl'
          rcases List.mem_cons.mp hl' with rfl | hl'
          · exact h3.le
          · exact h4 l' hl'
        · intro q' l' hq hl'
          rcases q' with _ | q'
          · simp at hl'; subst hl'; exact h3
          · exact h5 q' l' (by omega) (by simpa using hl')
    · simp only [nearest, if_neg hc]
      rcases ih (i + 1) d k with ⟨h1, h2⟩ | ⟨q, l, h1, h2, h3, h4, h5⟩
      · left
        refine ⟨h1, ?_⟩
        intro l' hl'
        rcases List.mem_cons.mp hl' with rfl | hl'
        · exact not_lt.mp hc
        · exact h2 l' hl'
      · right
        refine ⟨q + 1, l, by omega, by simpa using h2, h3, ?_, ?_⟩
        · intro l' hl'
          rcases List.mem_cons.mp hl' with rfl | hl'
          · exact h3.le.trans (not_lt.mp hc)
          · exact h4 l' hl'
        · intro q' l' hq hl'
          rcases q' with _ | q'
          · simp at hl'; subst hl'; exact lt_of_lt_of_le h3 (not_lt.mp hc)
          · exact h5 q' l' (by omega) (by simpa using hl')

end CGMF.MC

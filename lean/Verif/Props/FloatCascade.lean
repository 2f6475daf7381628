import Verif.Model.FloatCascade
import Verif.Props.FloatBranch

/-!
# C153: every path of photons has its probability, over all random bits
-/

namespace CGMF.Props

open CGMF CGMF.Fp CGMF.Twist CGMF.Pick

variable {fl : ℝ → ℝ}

/-- Specification: the sum of the intensities of a level. -/
noncomputable def intensity (g : List (Nat × ℝ × ℝ)) : ℝ := (g.map (·.2.1)).sum

/-- Specification: the probability of a transition, with or without conversion. Without intensities all photons are equally probable. -/
noncomputable def branching (g : List (Nat × ℝ × ℝ)) (t : Nat × ℝ × ℝ) (converted : Bool) : ℝ :=
  if intensity g = 0 then (if converted then 0 else 1 / g.length)
  else t.2.1 / intensity g * (if converted then t.2.2 / (1 + t.2.2) else 1 / (1 + t.2.2))

/-- Specification: the numbers of a level with at most `n` transitions are in range. -/
def Fair (n : Nat) (g : List (Nat × ℝ × ℝ)) : Prop :=
  g.length ≤ n ∧ (∀ t ∈ g, 0 ≤ t.2.1 ∧ 0 ≤ t.2.2 ∧ t.2.2 ≤ 2 ^ 100) ∧ (intensity g = 0 ∨ 1 / 2 ^ 300 ≤ intensity g ∧ intensity g ≤ 2 ^ 100)

/-- Specification: a path through the levels from `i` to the ground state. -/
def Descends (lev : Scheme) : Nat → List (Nat × Bool) → Prop
  | i, [] => i = 0
  | i, (j, _) :: p => i ≠ 0 ∧ ∃ t, (lev i)[j]? = some t ∧ Descends lev t.1 p

/-- Specification: the product of the probabilities along a path. -/
noncomputable def pathChance (lev : Scheme) : Nat → List (Nat × Bool) → ℝ
  | _, [] => 1
  | i, (j, b) :: p =>
    match (lev i)[j]? with
    | some t => branching (lev i) t b * pathChance lev t.1 p
    | none => 0

theorem choice_none (h : Double fl) {l : List ℝ} (hn : l.length ≤ 2 ^ 20) {f : ℝ → ℝ} (T0 : 0 < l.sum)
    (hf : ∀ p ∈ l, 0 ≤ f p ∧ |f p - p / l.sum| ≤ p / l.sum * ((l.length + 2) / 2 ^ 52) + 1 / 2 ^ 90) :
    chance (fun w => pickSum fl 0 (rng fl w) (l.map f) = none) ≤ (3 * l.length + 7) / 2 ^ 50 := by
  have n2 : (l.length : ℝ) ≤ 2 ^ 20 := by exact_mod_cast hn
  have n0 : (0 : ℝ) ≤ l.length := Nat.cast_nonneg _
  have tot := shares_sum l fun p hp => (hf p hp).2
  rw [div_self T0.ne', one_mul] at tot
  obtain ⟨t1, t2⟩ := abs_le.1 tot
  have stay := C126_chance_none h (l := l.map f) (fun q hq => by
      obtain ⟨p, hp, rfl⟩ := List.mem_map.1 hq
      exact (hf p hp).1)
    (by rw [List.length_map]; exact hn.trans (by norm_num)) (by
      generalize (l.length : ℝ) = N at *
      clear * - t2 n2
      norm_num at *; linarith)
  rw [List.length_map] at stay
  have m : max 0 (1 - (l.map f).sum) ≤ (l.length + 3) / 2 ^ 52 := by
    refine max_le (by positivity) ?_
    generalize (l.length : ℝ) = N at *
    clear * - t1 n2
    norm_num at *; linarith
  have := (abs_le.1 stay).2
  generalize max 0 (1 - (l.map f).sum) = x at *
  generalize (l.length : ℝ) = N at *
  clear * - this m n0
  norm_num at *; linarith

theorem transition_none (g : List (ℝ × ℝ)) :
    chance (fun w => transition fl g w = none) = chance (fun w => pickSum fl 0 (rng fl w) (g.map (·.1)) = none) := by
  have a := chance_and (fun w : Pair => pickSum fl 0 (rng fl w) (g.map (·.1)) = none) (fun _ : Pair => True)
  rw [chance_true, mul_one] at a
  rw [← a]
  refine chance_congr fun w => ?_
  unfold transition
  cases e : pickSum fl 0 (rng fl w.1) (g.map (·.1)) <;> simp

/-- One pass over a level: each outcome with its chance. -/
theorem pass_chance (h : Double fl) {n : Nat} (hn : n ≤ 2 ^ 20) {g : List (Nat × ℝ × ℝ)} (hg : Fair n g) {j : Nat} {t : Nat × ℝ × ℝ} (ht : g[j]? = some t) (b : Bool) :
    |chance (fun w => transition fl (normalizeBranch fl (g.map (·.2))) w = some (j, b)) - branching g t b| ≤ (2 * n + 6) / 2 ^ 50 ∧
    chance (fun w => transition fl (normalizeBranch fl (g.map (·.2))) w = none) ≤ (3 * n + 7) / 2 ^ 50 ∧
    0 ≤ branching g t b ∧ branching g t b ≤ 1 := by
  obtain ⟨len, range, sum⟩ := hg
  obtain ⟨hj, rfl⟩ := List.getElem?_eq_some_iff.1 ht
  have hj' : j < (g.map (·.2)).length := by simpa using hj
  have hm := List.getElem_mem hj
  have nn : (g.length : ℝ) ≤ n := by exact_mod_cast len
  have len' : (g.map (·.2)).length ≤ 2 ^ 20 := by rw [List.length_map]; omega
  have es : ((g.map (·.2)).map (·.1)).sum = intensity g := by unfold intensity; rw [List.map_map]; rfl
  have eg : (g.map (·.2))[j] = g[j].2 := by simp
  have le1 : (2 * (g.length : ℝ) + 6) / 2 ^ 50 ≤ (2 * n + 6) / 2 ^ 50 := div_le_div_of_nonneg_right (by linarith) (by positivity)
  have le2 : (3 * (g.length : ℝ) + 7) / 2 ^ 50 ≤ (3 * n + 7) / 2 ^ 50 := div_le_div_of_nonneg_right (by linarith) (by positivity)
  have nonneg : ∀ x ∈ g.map (·.2), 0 ≤ x.1 := by
    intro x hx
    obtain ⟨t, ht, rfl⟩ := List.mem_map.1 hx
    exact (range t ht).1
  rcases sum with z | ⟨lo, hi⟩
  · have zero : ∀ x ∈ g.map (·.2), x.1 = 0 := by
      intro x hx
      refine le_antisymm ?_ (nonneg x hx)
      rw [← z, ← es]
      exact List.single_le_sum (by simpa using fun a b c habc => (range _ habc).1) _ (List.mem_map_of_mem hx)
    have key := C151_equal h len' zero hj'
    have g0 : 0 < (g.map (·.2)).length := by omega
    have none := choice_none h (l := List.replicate (g.map (·.2)).length (1 : ℝ)) (by simpa using len') (f := fun _ => fl (1 / (g.map (·.2)).length))
      (by rw [List.sum_replicate, nsmul_eq_mul, mul_one]; exact_mod_cast g0) (equal_near h len' g0)
    have e1 : (normalizeBranch fl (g.map (·.2))).map (·.1) = (List.replicate (g.map (·.2)).length (1 : ℝ)).map fun _ => fl (1 / (g.map (·.2)).length) := by
      rw [equal_form h zero g0, List.map_map, List.map_replicate]; exact List.map_const'
    rw [← e1, ← transition_none, List.length_replicate] at none
    simp only [List.length_map] at key none g0
    have n1 : (1 : ℝ) ≤ g.length := by exact_mod_cast g0
    unfold branching
    rw [if_pos z]
    refine ⟨?_, none.trans le2, ?_⟩
    · cases b
      · simpa using key.1.trans le1
      · rw [key.2]
        simp only [if_true, sub_zero, abs_zero]
        positivity
    · cases b
      · simp only [Bool.false_eq_true, if_false]
        exact ⟨by positivity, by rw [div_le_one (by linarith)]; exact n1⟩
      · simp
  · rw [← es] at lo hi
    have key := C151_photon h len' nonneg (by
      intro x hx
      obtain ⟨t, ht, rfl⟩ := List.mem_map.1 hx
      exact (range t ht).2) lo hi hj'
    have left := C151_left h len' nonneg lo hi
    rw [es] at key lo
    simp only [eg, List.length_map] at key left
    have T0 : 0 < intensity g := lt_of_lt_of_le (by positivity) lo
    have s0 : 0 ≤ g[j].2.1 / intensity g := div_nonneg (range _ hm).1 T0.le
    have s1 : g[j].2.1 / intensity g ≤ 1 := by
      rw [div_le_one T0, ← es]
      exact List.single_le_sum (by simpa using fun a b c habc => (range _ habc).1) _ (by
        rw [List.map_map]; exact List.mem_map.2 ⟨_, hm, rfl⟩)
    have i0 := (range _ hm).2.1
    have c0 : 0 ≤ (if b then g[j].2.2 / (1 + g[j].2.2) else 1 / (1 + g[j].2.2)) ∧ (if b then g[j].2.2 / (1 + g[j].2.2) else 1 / (1 + g[j].2.2)) ≤ 1 := by
      cases b
      · simp only [Bool.false_eq_true, if_false]
        exact ⟨by positivity, by rw [div_le_one (by linarith)]; linarith⟩
      · simp only [if_true]
        exact ⟨by positivity, by rw [div_le_one (by linarith)]; linarith⟩
    unfold branching
    rw [if_neg T0.ne']
    refine ⟨?_, left.trans le2, mul_nonneg s0 c0.1, mul_le_one₀ s1 c0.1 c0.2⟩
    cases b
    · simpa using key.1.trans le1
    · simpa using key.2.trans le1

/-- **C153.** A cascade from level `i` takes a given path to the ground state, each step with or without conversion, with the product of the
probabilities of its steps, up to `(5n+13)/2^50` for every step, `n` the largest number of transitions of a level; this holds for every
number of passes that suffices for the path. -/
theorem C153_path (h : Double fl) {lev : Scheme} {n : Nat} (hn : n ≤ 2 ^ 20) (fair : ∀ i, i ≠ 0 → Fair n (lev i)) {p : List (Nat × Bool)} {i N : Nat}
    (hp : Descends lev i p) (hN : p.length ≤ N) :
    |chance (fun u : Fin N → Pair × Pair => walk fl lev i (List.ofFn u) = p) - pathChance lev i p| ≤ p.length * ((5 * n + 13) / 2 ^ 50) := by
  suffices h' : ∀ (p : List (Nat × Bool)) (i N : Nat), Descends lev i p → p.length ≤ N →
      |chance (fun u : Fin N → Pair × Pair => walk fl lev i (List.ofFn u) = p) - pathChance lev i p| ≤ p.length * ((5 * n + 13) / 2 ^ 50) by
    exact h' p i N hp hN
  clear hp hN p i N
  intro p
  induction p with
  | nil =>
    intro i N hp _
    have e : i = 0 := hp
    subst e
    have : chance (fun u : Fin N → Pair × Pair => walk fl lev 0 (List.ofFn u) = []) = 1 := by
      refine Eq.trans (chance_congr fun u => iff_true_intro ?_) chance_true
      cases List.ofFn u <;> simp [walk]
    rw [this]
    simp [pathChance]
  | cons s p ih =>
    obtain ⟨j, b⟩ := s
    rintro i N ⟨i0, t, ht, hp⟩ hN
    obtain ⟨N, rfl⟩ : ∃ k, N = k + 1 := ⟨N - 1, by simp at hN; omega⟩
    obtain ⟨c, stay, b0, b1⟩ := pass_chance h hn (fair i i0) ht b
    have ih := ih t.1 N hp (by simpa using hN)
    have next : ((lev i).map (·.1)).getD j 0 = t.1 := by
      rw [List.getD_eq_getElem?_getD, List.getElem?_map, ht]; rfl
    have split : chance (fun u : Fin (N + 1) → Pair × Pair => walk fl lev i (List.ofFn u) = (j, b) :: p)
        = chance (fun w => transition fl (normalizeBranch fl ((lev i).map (·.2))) w = some (j, b)) * chance (fun u : Fin N → Pair × Pair => walk fl lev t.1 (List.ofFn u) = p)
          + chance (fun w => transition fl (normalizeBranch fl ((lev i).map (·.2))) w = none) * chance (fun u : Fin N → Pair × Pair => walk fl lev i (List.ofFn u) = (j, b) :: p) := by
      rw [← chance_succ N (fun w => transition fl (normalizeBranch fl ((lev i).map (·.2))) w = some (j, b)) (fun l => walk fl lev t.1 l = p),
        ← chance_succ N (fun w => transition fl (normalizeBranch fl ((lev i).map (·.2))) w = none) (fun l => walk fl lev i l = (j, b) :: p), ← chance_or]
      · refine chance_congr fun u => ?_
        rw [List.ofFn_succ, walk, if_neg i0]
        cases e : transition fl (normalizeBranch fl ((lev i).map (·.2))) (u 0) with
        | none => simp
        | some q =>
          obtain ⟨j', b'⟩ := q
          simp only [List.cons.injEq, Option.some.injEq, reduceCtorEq, false_and, or_false]
          constructor
          · rintro ⟨e, r⟩
            cases e
            rw [next] at r
            exact ⟨rfl, r⟩
          · rintro ⟨e, r⟩
            cases e
            rw [next]
            exact ⟨rfl, r⟩
      · rintro u ⟨e, _⟩ ⟨e', _⟩
        rw [e] at e'
        cases e'
    rw [split]
    have pc : pathChance lev i ((j, b) :: p) = branching (lev i) t b * pathChance lev t.1 p := by
      rw [pathChance, ht]
    rw [pc]
    have prod := product_near c ih (chance_nonneg _) (chance_le_one _) b0 b1
    have rest : chance (fun w => transition fl (normalizeBranch fl ((lev i).map (·.2))) w = none) * chance (fun u : Fin N → Pair × Pair => walk fl lev i (List.ofFn u) = (j, b) :: p) ≤ (3 * n + 7) / 2 ^ 50 := by
      refine le_trans (mul_le_of_le_one_right (chance_nonneg _) (chance_le_one _)) stay
    have rest0 : 0 ≤ chance (fun w => transition fl (normalizeBranch fl ((lev i).map (·.2))) w = none) * chance (fun u : Fin N → Pair × Pair => walk fl lev i (List.ofFn u) = (j, b) :: p) :=
      mul_nonneg (chance_nonneg _) (chance_nonneg _)
    generalize chance (fun w => transition fl (normalizeBranch fl ((lev i).map (·.2))) w = none) * chance (fun u : Fin N → Pair × Pair => walk fl lev i (List.ofFn u) = (j, b) :: p) = x at *
    rw [add_sub_right_comm]
    refine (abs_add_le _ _).trans ?_
    rw [abs_of_nonneg rest0, List.length_cons, Nat.cast_add, Nat.cast_one]
    refine (add_le_add prod rest).trans (le_of_eq ?_)
    ring

/-- Three levels: from the second the photon to the first, converted, then the photon to the ground state. -/
example (h : Double fl) :
    |chance (fun u : Fin 5 → Pair × Pair =>
      walk fl (fun i => if i = 2 then [(1, 3, 1), (0, 1, 0)] else [(0, 0, 0)]) 2 (List.ofFn u) = [(0, true), (0, false)]) - 3 / 8| ≤ 46 / 2 ^ 50 := by
  have one : (1 : ℝ) / 2 ^ 300 ≤ 1 := by rw [div_le_one (by positivity)]; exact one_le_pow₀ (by norm_num)
  have := C153_path h (lev := fun i => if i = 2 then [(1, 3, 1), (0, 1, 0)] else [(0, 0, 0)]) (n := 2) (by norm_num) (fun i _ => by
    by_cases e : i = 2
    · simp only [e, if_true]
      refine ⟨by simp, by norm_num, Or.inr ?_⟩
      simp only [intensity, List.map_cons, List.map_nil, List.sum_cons, List.sum_nil]
      constructor
      · linarith
      · norm_num
    · simp only [e, if_false]
      exact ⟨by simp, by norm_num, Or.inl (by simp [intensity])⟩) (p := [(0, true), (0, false)]) (i := 2) (N := 5)
    (by simp [Descends]) (by simp)
  norm_num [pathChance, branching, intensity] at this ⊢
  exact this

end CGMF.Props

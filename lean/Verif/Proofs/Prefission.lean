import Verif.Model.Prefission
import Verif.Tactics
import Mathlib.Algebra.Order.Floor.Ring

/-! # Multi-chance fission: proofs -/

set_option linter.unusedSectionVars false

namespace CGMF

theorem readAt_ok_iff {α : Type} {xs : List α} {i : Int} {a : α} :
    readAt xs i = .ok a ↔ 0 ≤ i ∧ xs[i.toNat]? = some a := by
  unfold readAt
  split
  · rename_i h
    rw [List.getElem?_eq_getElem h.2]
    simp [h.1]
  · rename_i h
    constructor
    · intro h'; exact absurd h' (by simp)
    · rintro ⟨h1, h2⟩
      obtain ⟨h3, _⟩ := List.getElem?_eq_some_iff.mp h2
      exact absurd ⟨h1, h3⟩ h

theorem readAt_in {α : Type} {xs : List α} {i : Int} (h0 : 0 ≤ i) (h : i.toNat < xs.length) :
    readAt xs i = .ok xs[i.toNat] := by
  rw [readAt_ok_iff]; exact ⟨h0, List.getElem?_eq_getElem h⟩

theorem readAt_neg {α : Type} {xs : List α} {i : Int} (h : i < 0) : readAt xs i = .ub := by
  unfold readAt; rw [dif_neg]; omega

theorem readAt_ne_exit {α : Type} {xs : List α} {i : Int} : readAt xs i ≠ .exit := by
  unfold readAt; split <;> simp

theorem Res.bind_iff {α β : Type} {x : Res α} {f : α → Res β} {b : β} :
    Res.bind x f = .ok b ↔ ∃ a, x = .ok a ∧ f a = .ok b := by
  cases x <;> simp [Res.bind]

end CGMF

namespace CGMF.Pre

variable {K : Type} [Field K] [LinearOrder K] [IsStrictOrderedRing K]

theorem firstAtLeast_some {e : K} {es : List K} {i : Nat} (h : firstAtLeast e es = some i) :
    ∃ hi : i < es.length, e ≤ es[i] ∧ ∀ (k : Nat) (hk : k < es.length), k < i → es[k] < e := by
  obtain ⟨hi, h1, h2⟩ := List.findIdx?_eq_some_iff_getElem.mp h
  refine ⟨hi, by simpa using h1, ?_⟩
  intro k hk hki
  have := h2 k hki
  simpa using this

theorem firstAtLeast_exists {e : K} {es : List K} {x : K} (hx : x ∈ es) (h : e ≤ x) :
    ∃ i, firstAtLeast e es = some i := by
  unfold firstAtLeast
  cases hc : es.findIdx? (fun x => decide (e ≤ x)) with
  | some i => exact ⟨i, rfl⟩
  | none =>
    rw [List.findIdx?_eq_none_iff] at hc
    have := hc x hx
    simp at this
    exact absurd h (not_le.mpr this)

/-- The interpolated value in symmetric form. -/
theorem interp_value {e e0 e1 p0 p1 : K} (h : e0 < e1) :
    (if (p1 - p0) / (e1 - e0) ≠ 0 then (e - e0) * ((p1 - p0) / (e1 - e0)) + p0 else p1)
      = (p0 * (e1 - e) + p1 * (e - e0)) / (e1 - e0) := by
  have hne : e1 - e0 ≠ 0 := sub_ne_zero.mpr h.ne'
  by_cases hs : (p1 - p0) / (e1 - e0) = 0
  · rw [if_neg (not_not.mpr hs)]
    have : p1 = p0 := by
      rcases div_eq_zero_iff.mp hs with h1 | h1
      · exact sub_eq_zero.mp h1
      · exact absurd h1 hne
    subst this
    field_simp
    ring
  · rw [if_pos hs]
    field_simp
    ring

theorem interpFrom_spec (c : Chance K) (e : K) (i : Int) : ∀ (m j : Nat) (ps : List K),
    interpFrom c e i j m = .ok ps → ps.length = m ∧
      ∀ (t : Nat) (v : K), ps[t]? = some v → interpOne c e i ((j + t : Nat) : Int) = .ok v := by
  intro m
  induction m with
  | zero => intro j ps h; cases h; simp
  | succ m ih =>
    intro j ps h
    rw [interpFrom, Res.bind_iff] at h
    obtain ⟨p, h1, h⟩ := h
    rw [Res.bind_iff] at h
    obtain ⟨qs, h2, h3⟩ := h
    cases h3
    obtain ⟨hl, hv⟩ := ih (j + 1) qs h2
    refine ⟨by simp [hl], ?_⟩
    intro t v ht
    cases t with
    | zero => simp at ht; subst ht; simpa using h1
    | succ t =>
      simp at ht
      have := hv t v ht
      rw [show j + (t + 1) = j + 1 + t by omega]
      exact this

theorem interpFrom_total (c : Chance K) (e : K) (i : Int) : ∀ (m j : Nat),
    (∀ t, t < m → ∃ v, interpOne c e i ((j + t : Nat) : Int) = .ok v) → ∃ ps, interpFrom c e i j m = .ok ps := by
  intro m
  induction m with
  | zero => intro j _; exact ⟨[], rfl⟩
  | succ m ih =>
    intro j h
    obtain ⟨v, hv⟩ := h 0 (by omega)
    obtain ⟨ps, hps⟩ := ih (j + 1) (by
      intro t ht
      have := h (t + 1) (by omega)
      rwa [show j + (t + 1) = j + 1 + t by omega] at this)
    refine ⟨v :: ps, ?_⟩
    rw [interpFrom]
    simp only [Nat.add_zero] at hv
    rw [hv]
    simp [Res.bind, hps]

theorem maxOf_aux (ps : List K) : ∀ (m : K), m ≤ ps.foldl (fun m p => if m < p then p else m) m ∧
    (∀ p ∈ ps, p ≤ ps.foldl (fun m p => if m < p then p else m) m) ∧
    (ps.foldl (fun m p => if m < p then p else m) m = m ∨
      ps.foldl (fun m p => if m < p then p else m) m ∈ ps) := by
  induction ps with
  | nil => intro m; simp
  | cons p ps ih =>
    intro m
    simp only [List.foldl_cons]
    by_cases h : m < p
    · simp only [if_pos h]
      obtain ⟨h1, h2, h3⟩ := ih p
      refine ⟨h.le.trans h1, ?_, ?_⟩
      · intro q hq
        rcases List.mem_cons.mp hq with rfl | hq
        · exact h1
        · exact h2 q hq
      · right
        rcases h3 with h3 | h3
        · rw [h3]; simp
        · exact List.mem_cons_of_mem _ h3
    · simp only [if_neg h]
      obtain ⟨h1, h2, h3⟩ := ih m
      refine ⟨h1, ?_, ?_⟩
      · intro q hq
        rcases List.mem_cons.mp hq with rfl | hq
        · exact (not_lt.mp h).trans h1
        · exact h2 q hq
      · rcases h3 with h3 | h3
        · left; exact h3
        · right; exact List.mem_cons_of_mem _ h3

theorem maxOf_nonneg (ps : List K) : 0 ≤ maxOf ps := (maxOf_aux ps 0).1
theorem maxOf_le (ps : List K) : ∀ p ∈ ps, p ≤ maxOf ps := (maxOf_aux ps 0).2.1
theorem maxOf_mem (ps : List K) : maxOf ps = 0 ∨ maxOf ps ∈ ps := (maxOf_aux ps 0).2.2

theorem normTo_take (m : Nat) (ps : List K) :
    (normTo m ps).take m = (ps.take m).map (· / (ps.take m).sum) := by
  unfold normTo
  by_cases h : m ≤ ps.length
  · rw [List.take_append_of_le_length (by simp [h])]
    rw [List.take_of_length_le (by simp)]
  · rw [List.drop_eq_nil_of_le (by omega), List.append_nil, List.take_of_length_le]
    simp

theorem sum_map_div (ps : List K) (s : K) : (ps.map (· / s)).sum = ps.sum / s := by
  induction ps with
  | nil => simp
  | cons p ps ih => simp [ih, add_div]

theorem sum_norm (ps : List K) (h : ps.sum ≠ 0) : (ps.map (· / ps.sum)).sum = 1 := by
  rw [sum_map_div, div_self h]

theorem limit_spec (ps : List K) (nn : Nat) (nemit : Int) :
    (limit ps nn nemit = nn ∧ ∀ j : Nat, (j : Int) ≤ min nemit nn → 0 < ps.getD j 0) ∨
    (∃ j : Nat, (j : Int) ≤ min nemit nn ∧ limit ps nn nemit = (j : Int) - 1 ∧ ps.getD j 0 ≤ 0 ∧
      ∀ i : Nat, i < j → 0 < ps.getD i 0) := by
  unfold limit
  cases h : (List.range (min nemit (nn : Int) + 1).toNat).find? (fun j : Nat => decide (ps.getD j 0 ≤ 0)) with
  | none =>
    left
    refine ⟨rfl, ?_⟩
    intro j hj
    rw [List.find?_eq_none] at h
    have := h j (by rw [List.mem_range]; omega)
    simpa using this
  | some j =>
    right
    have h1 := List.find?_some h
    have h2 := List.mem_of_find?_eq_some h
    rw [List.mem_range] at h2
    refine ⟨j, by omega, rfl, by simpa using h1, ?_⟩
    intro i hi
    obtain ⟨k, hk, hk1, hk2⟩ := (List.find?_eq_some_iff_getElem.mp h).2
    simp at hk1
    subst hk1
    have := hk2 i hi
    simpa using this

variable [FloorRing K]

theorem floor_unit {r : K} (h0 : 0 ≤ r) (h1 : r < 1) {n : Int} (hn : 0 < n) :
    0 ≤ ⌊r * (n : K)⌋ ∧ ⌊r * (n : K)⌋ < n := by
  have hn' : (0 : K) < n := by exact_mod_cast hn
  constructor
  · exact Int.floor_nonneg.mpr (mul_nonneg h0 hn'.le)
  · rw [Int.floor_lt]
    calc r * (n : K) < 1 * n := mul_lt_mul_of_pos_right h1 hn'
      _ = n := one_mul _

/-- The loop ends with the first accepted pair of random numbers. -/
theorem number_ok (m : Multi K) : ∀ (N : Nat) (s s' : List K) (n : Int), s.length ≤ N → number m s = .ok (n, s') →
    ∃ (pre : List K) (r1 r2 p : K), s = pre ++ r1 :: r2 :: s' ∧ n = ⌊r1 * (m.nemit + 1 : Int)⌋ ∧
      readAt m.prob n = .ok p ∧ m.pmax * r2 ≤ p := by
  intro N
  induction N with
  | zero =>
    intro s s' n hs h
    have : s = [] := List.length_eq_zero_iff.mp (by omega)
    subst this
    simp [number] at h
  | succ N ih =>
    intro s s' n hs h
    match s, h with
    | [], h => simp [number] at h
    | [_], h => simp [number] at h
    | r1 :: r2 :: s, h =>
      rw [number] at h
      generalize hc : readAt m.prob ⌊r1 * (m.nemit + 1 : Int)⌋ = o at h
      rcases o with p | _ | _
      · simp only [] at h
        by_cases hp : p < m.pmax * r2
        · rw [if_pos hp] at h
          obtain ⟨pre, a, b, q, e1, e2⟩ := ih s s' n (by simp at hs; omega) h
          exact ⟨r1 :: r2 :: pre, a, b, q, by simp [e1], e2⟩
        · rw [if_neg hp] at h
          simp only [Out.ok.injEq, Prod.mk.injEq] at h
          obtain ⟨rfl, rfl⟩ := h
          exact ⟨[], r1, r2, p, rfl, rfl, hc, not_lt.mp hp⟩
      · simp at h
      · simp at h

theorem number_safe (m : Multi K) (h0 : 0 ≤ m.nemit) (hlen : m.nemit < m.prob.length) :
    ∀ (N : Nat) (s : List K), s.length ≤ N → (∀ r ∈ s, 0 ≤ r ∧ r < 1) → number m s ≠ .ub ∧ number m s ≠ .exit := by
  intro N
  induction N with
  | zero =>
    intro s hs _
    have : s = [] := List.length_eq_zero_iff.mp (by omega)
    subst this
    simp [number]
  | succ N ih =>
    intro s hs hr
    match s, hs, hr with
    | [], _, _ => simp [number]
    | [_], _, _ => simp [number]
    | r1 :: r2 :: s, hs, hr =>
      have hr1 := hr r1 (by simp)
      obtain ⟨a, b⟩ := floor_unit hr1.1 hr1.2 (n := m.nemit + 1) (by omega)
      rw [number, readAt_in a (by omega)]
      simp only []
      split
      · exact ih s (by simp at hs; omega) (fun r hr' => hr r (by simp [hr']))
      · simp

end CGMF.Pre

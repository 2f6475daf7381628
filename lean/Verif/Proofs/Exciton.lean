import Verif.Spec.Exciton
import Verif.Tactics

/-! Convergence of the occupation probabilities. -/

set_option linter.unusedSectionVars false

namespace CGMF.Exc

open CGMF.ExcSpec

variable {K : Type} [Field K] [LinearOrder K] [IsStrictOrderedRing K]

theorem inflow_eq (r : Rates K) (P : Nat → Nat → K) (i j : Nat) (hi : i < 6) (hj : j < 6) :
    inflow r P i j = arrivals r P i j := by
  have h5 : maxPreeq - 1 = 5 := rfl
  have e1 : ∀ f : Nat → Nat → K, at6 f ((i : Int) - 1) j = if 0 < i then f (i - 1) j else 0 := by
    intro f; unfold at6
    by_cases h : 0 < i
    · rw [if_pos (by omega), if_pos h]; congr 1; omega
    · rw [if_neg (by omega), if_neg h]
  have e2 : ∀ f : Nat → Nat → K, at6 f i ((j : Int) - 1) = if 0 < j then f i (j - 1) else 0 := by
    intro f; unfold at6
    by_cases h : 0 < j
    · rw [if_pos (by omega), if_pos h]; congr 1; omega
    · rw [if_neg (by omega), if_neg h]
  have e3 : ∀ f : Nat → Nat → K, at6 f ((i : Int) - 1) (j + 1) = if 0 < i ∧ j < 5 then f (i - 1) (j + 1) else 0 := by
    intro f; unfold at6
    by_cases h : 0 < i ∧ j < 5
    · rw [if_pos (by omega), if_pos h]; congr 1; omega
    · rw [if_neg (by omega), if_neg h]
  have e4 : ∀ f : Nat → Nat → K, at6 f ((i : Int) - 2) (j + 1) = if 1 < i ∧ j < 5 then f (i - 2) (j + 1) else 0 := by
    intro f; unfold at6
    by_cases h : 1 < i ∧ j < 5
    · rw [if_pos (by omega), if_pos h]; congr 1; omega
    · rw [if_neg (by omega), if_neg h]
  have e5 : ∀ f : Nat → Nat → K, at6 f ((i : Int) + 1) ((j : Int) - 1) = if 0 < j ∧ i < 5 then f (i + 1) (j - 1) else 0 := by
    intro f; unfold at6
    by_cases h : 0 < j ∧ i < 5
    · rw [if_pos (by omega), if_pos h]; congr 1; omega
    · rw [if_neg (by omega), if_neg h]
  have e6 : ∀ f : Nat → Nat → K, at6 f ((i : Int) + 1) ((j : Int) - 2) = if 1 < j ∧ i < 5 then f (i + 1) (j - 2) else 0 := by
    intro f; unfold at6
    by_cases h : 1 < j ∧ i < 5
    · rw [if_pos (by omega), if_pos h]; congr 1; omega
    · rw [if_neg (by omega), if_neg h]
  unfold arrivals inflow
  rw [e1, e1, e2, e2, e3, e4, e5, e6, h5]

/-- `inflow` reads `p` only one level below. -/
theorem inflow_congr (r : Rates K) (p q : Nat → Nat → K) (i j : Nat) (hi : i < 6) (hj : j < 6)
    (h : ∀ a b, a < 6 → b < 6 → a + b + 1 = i + j → p a b = q a b) : inflow r p i j = inflow r q i j := by
  have h5 : maxPreeq - 1 = 5 := rfl
  have g1 : 0 < i → p (i - 1) j = q (i - 1) j := fun k => h _ _ (by omega) hj (by omega)
  have g2 : 0 < j → p i (j - 1) = q i (j - 1) := fun k => h _ _ hi (by omega) (by omega)
  have g3 : 1 < i ∧ j < 5 → p (i - 2) (j + 1) = q (i - 2) (j + 1) := fun k => h _ _ (by omega) (by omega) (by omega)
  have g4 : 1 < j ∧ i < 5 → p (i + 1) (j - 2) = q (i + 1) (j - 2) := fun k => h _ _ (by omega) (by omega) (by omega)
  unfold inflow
  simp only [h5]
  have c {P : Prop} [Decidable P] {x y : K} (h : P → x = y) : (if P then x else 0) = if P then y else 0 := by
    by_cases k : P
    · rw [if_pos k, if_pos k, h k]
    · rw [if_neg k, if_neg k]
  rw [c (fun k => by rw [g1 k] : 0 < i → p (i-1) j * r.tzp (i-1) j * r.t1 (i-1) j = q (i-1) j * r.tzp (i-1) j * r.t1 (i-1) j),
    c (fun k => by rw [g1 k] : 0 < i → p (i-1) j * r.tnp (i-1) j * r.t2 (i-1) j = q (i-1) j * r.tnp (i-1) j * r.t2 (i-1) j),
    c (fun k => by rw [g2 k] : 0 < j → p i (j-1) * r.tnp i (j-1) * r.t1 i (j-1) = q i (j-1) * r.tnp i (j-1) * r.t1 i (j-1)),
    c (fun k => by rw [g2 k] : 0 < j → p i (j-1) * r.tzp i (j-1) * r.t2 i (j-1) = q i (j-1) * r.tzp i (j-1) * r.t2 i (j-1)),
    c (fun k => by rw [g3 k] : 1 < i ∧ j < 5 → p (i-2) (j+1) * r.tzp (i-2) (j+1) * r.t2 (i-2) (j+1) = q (i-2) (j+1) * r.tzp (i-2) (j+1) * r.t2 (i-2) (j+1)),
    c (fun k => by rw [g4 k] : 1 < j ∧ i < 5 → p (i+1) (j-2) * r.tnp (i+1) (j-2) * r.t2 (i+1) (j-2) = q (i+1) (j-2) * r.tnp (i+1) (j-2) * r.t2 (i+1) (j-2))]

/-- `inflow` is monotone and scales, for rates that are not negative. -/
theorem inflow_mono (r : Rates K) (hr : NonNeg r) (c : K) (p q : Nat → Nat → K) (i j : Nat) (hi : i < 6) (hj : j < 6)
    (h : ∀ a b, a < 6 → b < 6 → a + b + 1 = i + j → c * p a b ≤ q a b) : c * inflow r p i j ≤ inflow r q i j := by
  have h5 : maxPreeq - 1 = 5 := rfl
  have g1 : 0 < i → c * p (i - 1) j ≤ q (i - 1) j := fun k => h _ _ (by omega) hj (by omega)
  have g2 : 0 < j → c * p i (j - 1) ≤ q i (j - 1) := fun k => h _ _ hi (by omega) (by omega)
  have g3 : 1 < i ∧ j < 5 → c * p (i - 2) (j + 1) ≤ q (i - 2) (j + 1) := fun k => h _ _ (by omega) (by omega) (by omega)
  have g4 : 1 < j ∧ i < 5 → c * p (i + 1) (j - 2) ≤ q (i + 1) (j - 2) := fun k => h _ _ (by omega) (by omega) (by omega)
  have cc {P : Prop} [Decidable P] {x y u v : K} (h : P → c * x ≤ y) (hu : P → 0 ≤ u) (hv : P → 0 ≤ v) :
      c * (if P then x * u * v else 0) ≤ if P then y * u * v else 0 := by
    by_cases k : P
    · rw [if_pos k, if_pos k]
      have := mul_le_mul_of_nonneg_right (mul_le_mul_of_nonneg_right (h k) (hu k)) (hv k)
      calc c * (x * u * v) = c * x * u * v := by ring
        _ ≤ _ := this
    · rw [if_neg k, if_neg k, mul_zero]
  have yy {P : Prop} [Decidable P] {u v : K} (hu : P → 0 ≤ u) (hv : P → 0 ≤ v) : 0 ≤ (if P then u * v else 0) := by
    by_cases k : P
    · rw [if_pos k]; exact mul_nonneg (hu k) (hv k)
    · rw [if_neg k]
  have a1 := cc g1 (fun _ => hr.tzp (i-1) j (by omega) (by omega))
    (fun _ => hr.t1 (i-1) j (by omega) (by omega))
  have a5 := cc g1 (fun _ => hr.tnp (i-1) j (by omega) (by omega))
    (fun _ => hr.t2 (i-1) j (by omega) (by omega))
  have a2 := cc g2 (fun _ => hr.tnp i (j-1) (by omega) (by omega))
    (fun _ => hr.t1 i (j-1) (by omega) (by omega))
  have a6 := cc g2 (fun _ => hr.tzp i (j-1) (by omega) (by omega))
    (fun _ => hr.t2 i (j-1) (by omega) (by omega))
  have a3 := cc g3 (fun _ => hr.tzp (i-2) (j+1) (by omega) (by omega))
    (fun _ => hr.t2 (i-2) (j+1) (by omega) (by omega))
  have a4 := cc g4 (fun _ => hr.tnp (i+1) (j-2) (by omega) (by omega))
    (fun _ => hr.t2 (i+1) (j-2) (by omega) (by omega))
  have b1 : 0 ≤ (if 0 < i ∧ j < 5 then r.tn0 (i-1) (j+1) * r.t1 (i-1) (j+1) else 0) := yy (fun _ => hr.tn0 _ _ (by omega) (by omega)) (fun _ => hr.t1 _ _ (by omega) (by omega))
  have b2 : 0 ≤ (if 0 < j ∧ i < 5 then r.tz0 (i+1) (j-1) * r.t1 (i+1) (j-1) else 0) := yy (fun _ => hr.tz0 _ _ (by omega) (by omega)) (fun _ => hr.t1 _ _ (by omega) (by omega))
  have d1 := mul_le_mul_of_nonneg_left (add_le_add a3 a5) b1
  have d2 := mul_le_mul_of_nonneg_left (add_le_add a4 a6) b2
  unfold inflow
  simp only [h5]
  have := add_le_add (add_le_add (add_le_add a1 a2) d1) d2
  refine le_trans (le_of_eq ?_) this
  ring

theorem inflow_zero (r : Rates K) (p : Nat → Nat → K) : inflow r p 0 0 = 0 := by simp [inflow]

/-! ### One pass -/

theorem put_same (p : Nat → Nat → K) (i j : Nat) (v : K) : put p i j v i j = v := by simp [put]

theorem put_other (p : Nat → Nat → K) (i j a b : Nat) (v : K) (h : (a, b) ≠ (i, j)) : put p i j v a b = p a b := by
  unfold put
  rw [if_neg]
  rintro ⟨rfl, rfl⟩; exact h rfl

/-- `p` has a 1 (or will be given one) in the corner; the other cells agree. -/
def Same (p q : Nat → Nat → K) (c : Nat × Nat) : Prop := p c.1 c.2 = q c.1 c.2

/-- What a run of the inner loops over the list `cs` does. -/
theorem foldl_spec (r : Rates K) (cs : List (Nat × Nat)) (hn : cs.Nodup) :
    ∀ (s : (Nat → Nat → K) × Bool),
      (∀ c, c ∉ cs → c ≠ (0, 0) → (cs.foldl (occStep r) s).1 c.1 c.2 = s.1 c.1 c.2) ∧
      (∀ c ∈ cs, c ≠ (0, 0) → ∃ q : Nat → Nat → K, q 0 0 = 1 ∧
        (∀ d, d ≠ (0, 0) → q d.1 d.2 = s.1 d.1 d.2 ∨ q d.1 d.2 = (cs.foldl (occStep r) s).1 d.1 d.2) ∧
        (cs.foldl (occStep r) s).1 c.1 c.2 = inflow r q c.1 c.2) ∧
      ((cs.foldl (occStep r) s).2 = true ↔ s.2 = true ∧ ∀ c ∈ cs, c ≠ (0, 0) →
        ¬ (0 < (cs.foldl (occStep r) s).1 c.1 c.2 ∧
          occEps < |s.1 c.1 c.2 / (cs.foldl (occStep r) s).1 c.1 c.2 - 1|)) := by
  induction cs with
  | nil => intro s; simp
  | cons c0 cs ih =>
    intro s
    obtain ⟨hc, hn⟩ := List.nodup_cons.1 hn
    obtain ⟨k1, k2, k3⟩ := ih hn (occStep r s c0)
    rw [List.foldl_cons]
    generalize hs : occStep r s c0 = s1 at *
    generalize hF : cs.foldl (occStep r) s1 = F at *
    have e1 : ∀ d, d ≠ (0, 0) → d ≠ c0 → s1.1 d.1 d.2 = s.1 d.1 d.2 := by
      intro d h0 h1
      rw [← hs]
      show put (put s.1 0 0 1) c0.1 c0.2 _ d.1 d.2 = _
      rw [put_other _ _ _ _ _ _ h1, put_other _ _ _ _ _ _ h0]
    have e2 : c0 ≠ (0, 0) → s1.1 c0.1 c0.2 = inflow r (put s.1 0 0 1) c0.1 c0.2 := by
      intro _; rw [← hs]; exact put_same _ _ _ _
    have e3 : c0 ≠ (0, 0) → F.1 c0.1 c0.2 = s1.1 c0.1 c0.2 := fun h => k1 c0 hc h
    refine ⟨?_, ?_, ?_⟩
    · intro c h h0
      rw [List.mem_cons, not_or] at h
      rw [k1 c h.2 h0, e1 c h0 h.1]
    · intro c h h0
      rcases List.mem_cons.1 h with rfl | h
      · refine ⟨put s.1 0 0 1, put_same _ _ _ _, ?_, ?_⟩
        · intro d hd
          left; exact put_other _ _ _ _ _ _ hd
        · rw [e3 h0, e2 h0]
      · obtain ⟨q, q0, q1, q2⟩ := k2 c h h0
        refine ⟨q, q0, ?_, q2⟩
        intro d hd
        rcases q1 d hd with g | g
        · by_cases hd0 : d = c0
          · right; rw [g, hd0, e3 (hd0 ▸ hd)]
          · left; rw [g, e1 d hd hd0]
        · right; exact g
    · rw [k3]
      have f1 : s1.2 = true ↔ s.2 = true ∧ (c0 ≠ (0, 0) → ¬ (0 < F.1 c0.1 c0.2 ∧
          occEps < |s.1 c0.1 c0.2 / F.1 c0.1 c0.2 - 1|)) := by
        by_cases h0 : c0 = (0, 0)
        · have : s1.2 = s.2 := by
            rw [← hs, h0]
            show (if 0 < inflow r (put s.1 0 0 1) 0 0 ∧ _ then false else s.2) = s.2
            rw [inflow_zero, if_neg]; rintro ⟨h, _⟩; exact lt_irrefl _ h
          rw [this]
          exact ⟨fun h => ⟨h, fun k => absurd h0 k⟩, fun h => h.1⟩
        · rw [e3 h0, e2 h0, ← hs]
          show (if 0 < inflow r (put s.1 0 0 1) c0.1 c0.2 ∧ _ then false else s.2) = true ↔ _
          rw [put_other s.1 0 0 c0.1 c0.2 1 h0]
          by_cases g : 0 < inflow r (put s.1 0 0 1) c0.1 c0.2 ∧
              occEps < |s.1 c0.1 c0.2 / inflow r (put s.1 0 0 1) c0.1 c0.2 - 1|
          · rw [if_pos g]
            simp only [Bool.false_eq_true, false_iff]
            exact fun h => h.2 h0 g
          · rw [if_neg g]
            exact ⟨fun h => ⟨h, fun _ => g⟩, fun h => h.1⟩
      rw [f1]
      constructor
      · rintro ⟨⟨a, b⟩, c⟩
        refine ⟨a, ?_⟩
        intro d hd h0
        rcases List.mem_cons.1 hd with hd' | hd'
        · subst hd'; exact b h0
        · have := c d hd' h0
          rw [e1 d h0 (by intro e; exact hc (e ▸ hd'))] at this
          exact this
      · rintro ⟨a, b⟩
        refine ⟨⟨a, fun h0 => b c0 List.mem_cons_self h0⟩, ?_⟩
        intro d hd h0
        rw [e1 d h0 (by intro e; exact hc (e ▸ hd))]
        exact b d (List.mem_cons_of_mem _ hd) h0

theorem cells_nodup : cells.Nodup := by decide

theorem mem_cells (c : Nat × Nat) : c ∈ cells ↔ c.1 < 6 ∧ c.2 < 6 := by
  unfold cells
  simp only [List.mem_flatMap, List.mem_map, List.mem_range]
  constructor
  · rintro ⟨i, hi, j, hj, rfl⟩; exact ⟨hi, hj⟩
  · rintro ⟨h1, h2⟩; exact ⟨c.1, h1, c.2, h2, rfl⟩

theorem sweep_corner (r : Rates K) (p : Nat → Nat → K) : (sweep r p).1 0 0 = 1 := by
  have hc : cells = (cells.take 35) ++ [(5, 5)] := by decide
  unfold sweep
  rw [hc, List.foldl_append]
  generalize (cells.take 35).foldl (occStep r) (p, true) = s
  show put (put s.1 0 0 1) 5 5 (inflow r (put s.1 0 0 1) 5 5) 0 0 = 1
  rw [put_other _ _ _ _ _ _ (by decide), put_same]

theorem sweep_spec (r : Rates K) (p : Nat → Nat → K) :
    (sweep r p).1 0 0 = 1 ∧
    (∀ i j, i < 6 → j < 6 → (i, j) ≠ (0, 0) → ∃ q : Nat → Nat → K, q 0 0 = 1 ∧
      (∀ d : Nat × Nat, d ≠ (0, 0) → q d.1 d.2 = p d.1 d.2 ∨ q d.1 d.2 = (sweep r p).1 d.1 d.2) ∧
      (sweep r p).1 i j = inflow r q i j) ∧
    ((sweep r p).2 = true ↔ ∀ i j, i < 6 → j < 6 → (i, j) ≠ (0, 0) →
      ¬ (0 < (sweep r p).1 i j ∧ occEps < |p i j / (sweep r p).1 i j - 1|)) := by
  obtain ⟨_, k2, k3⟩ := foldl_spec r cells cells_nodup (p, true)
  refine ⟨sweep_corner r p, ?_, ?_⟩
  · intro i j hi hj h0
    exact k2 (i, j) ((mem_cells _).2 ⟨hi, hj⟩) h0
  · rw [show sweep r p = cells.foldl (occStep r) (p, true) from rfl, k3]
    constructor
    · rintro ⟨_, h⟩ i j hi hj h0
      exact h (i, j) ((mem_cells _).2 ⟨hi, hj⟩) h0
    · intro h
      refine ⟨rfl, ?_⟩
      rintro ⟨i, j⟩ hc h0
      have := (mem_cells _).1 hc
      exact h i j this.1 this.2 h0

/-! ### Convergence -/

/-- `p` is the solution below level `n`. -/
def Exact (P p : Nat → Nat → K) (n : Nat) : Prop := ∀ i j, i < 6 → j < 6 → i + j < n → p i j = P i j

theorem balanced_inflow {r : Rates K} {P : Nat → Nat → K} (h : Balanced r P) (i j : Nat) (hi : i < 6) (hj : j < 6)
    (h0 : (i, j) ≠ (0, 0)) : P i j = inflow r P i j := by
  rw [inflow_eq r P i j hi hj]; exact h.2 i j hi hj h0

theorem sweep_exact {r : Rates K} {P p : Nat → Nat → K} {n : Nat} (h : Balanced r P) (hp : Exact P p n) :
    Exact P (sweep r p).1 (n + 1) := by
  obtain ⟨s0, s1, _⟩ := sweep_spec r p
  suffices ∀ m i j, i < 6 → j < 6 → i + j = m → m < n + 1 → (sweep r p).1 i j = P i j by
    intro i j hi hj hn; exact this (i + j) i j hi hj rfl hn
  intro m
  induction m with
  | zero =>
    intro i j hi hj hm _
    obtain ⟨rfl, rfl⟩ : i = 0 ∧ j = 0 := by omega
    rw [s0, h.1]
  | succ m ih =>
    intro i j hi hj hm hn
    have h0 : (i, j) ≠ (0, 0) := by intro e; injection e; omega
    obtain ⟨q, q0, q1, q2⟩ := s1 i j hi hj h0
    rw [q2, balanced_inflow h i j hi hj h0]
    refine inflow_congr r q P i j hi hj ?_
    intro a b ha hb hab
    by_cases hd : (a, b) = (0, 0)
    · injection hd with e1 e2; subst e1; subst e2; rw [q0, h.1]
    · rcases q1 (a, b) hd with g | g
      · exact g.trans (hp a b ha hb (by omega))
      · exact g.trans (ih a b ha hb (by omega) (by omega))

theorem sweep_fixed {r : Rates K} {P p : Nat → Nat → K} (h : Balanced r P) (hp : Exact P p 11) :
    (sweep r p).2 = true := by
  obtain ⟨_, _, s2⟩ := sweep_spec r p
  rw [s2]
  intro i j hi hj h0
  have e := sweep_exact h hp i j hi hj (by omega)
  rw [e, hp i j hi hj (by omega)]
  rintro ⟨g1, g2⟩
  rw [div_self (ne_of_gt g1), sub_self, abs_zero] at g2
  unfold occEps at g2
  have : (0 : K) < 1 / 1000000 := by norm_num
  exact lt_irrefl _ (lt_trans g2 this)

/-- The loop ends with a converged pass, at the latest in the pass after the eleventh. -/
theorem occLoop_conv {r : Rates K} {P : Nat → Nat → K} (h : Balanced r P) :
    ∀ (k n : Nat) (s : (Nat → Nat → K) × Bool), k ≤ 11 → 12 ≤ n + k → Exact P s.1 k →
      ∃ p, (occLoop r n s) = ((sweep r p).1, true) ∧ (sweep r p).2 = true := by
  intro k
  induction hk : 11 - k generalizing k with
  | zero =>
    intro n s h1 h2 h3
    have : k = 11 := by omega
    subst this
    obtain ⟨n, rfl⟩ : ∃ m, n = m + 1 := ⟨n - 1, by omega⟩
    have c := sweep_fixed h h3
    refine ⟨s.1, ?_, c⟩
    show (if (sweep r s.1).2 = true then sweep r s.1 else _) = _
    rw [if_pos c, ← c]
  | succ d ih =>
    intro n s h1 h2 h3
    obtain ⟨n, rfl⟩ : ∃ m, n = m + 1 := ⟨n - 1, by omega⟩
    by_cases c : (sweep r s.1).2 = true
    · refine ⟨s.1, ?_, c⟩
      show (if (sweep r s.1).2 = true then sweep r s.1 else _) = _
      rw [if_pos c, ← c]
    · have : occLoop r (n + 1) s = occLoop r n (sweep r s.1) := by
        show (if (sweep r s.1).2 = true then sweep r s.1 else _) = _
        rw [if_neg c]
      rw [this]
      exact ih (k + 1) (by omega) n (sweep r s.1) (by omega) (by omega) (sweep_exact h h3)

/-- Iterates from zero: increasing and never negative. -/
def Good (p p' : Nat → Nat → K) : Prop := ∀ i j, i < 6 → j < 6 → 0 ≤ p i j ∧ p i j ≤ p' i j

theorem level_split (h : Nat × Nat → Prop) (hh : ∀ m, (∀ a b, a < 6 → b < 6 → a + b < m → h (a, b)) →
    ∀ i j, i < 6 → j < 6 → i + j = m → h (i, j)) : ∀ i j, i < 6 → j < 6 → h (i, j) := by
  intro i j hi hj
  suffices ∀ m i j, i < 6 → j < 6 → i + j < m → h (i, j) from this (i + j + 1) i j hi hj (by omega)
  intro m
  induction m with
  | zero => intro i j _ _ h; omega
  | succ m ih =>
    intro i j hi hj hm
    by_cases e : i + j < m
    · exact ih i j hi hj e
    · exact hh m ih i j hi hj (by omega)

theorem nonneg_zero (r : Rates K) (hr : NonNeg r) (q : Nat → Nat → K) (i j : Nat) (hi : i < 6) (hj : j < 6)
    (h : ∀ a b, a < 6 → b < 6 → a + b + 1 = i + j → 0 ≤ q a b) : 0 ≤ inflow r q i j := by
  have := inflow_mono r hr 0 q q i j hi hj (fun a b ha hb hab => by rw [zero_mul]; exact h a b ha hb hab)
  rwa [zero_mul] at this

theorem sweep_nonneg {r : Rates K} (hr : NonNeg r) {p : Nat → Nat → K} (hp : ∀ i j, i < 6 → j < 6 → 0 ≤ p i j) :
    ∀ i j, i < 6 → j < 6 → 0 ≤ (sweep r p).1 i j := by
  obtain ⟨s0, s1, _⟩ := sweep_spec r p
  refine level_split (fun c => 0 ≤ (sweep r p).1 c.1 c.2) ?_
  intro m ih i j hi hj hm
  show 0 ≤ (sweep r p).1 i j
  by_cases h0 : (i, j) = (0, 0)
  · injection h0 with e1 e2; subst e1; subst e2; rw [s0]; exact zero_le_one
  · obtain ⟨q, q0, q1, q2⟩ := s1 i j hi hj h0
    rw [q2]
    refine nonneg_zero r hr q i j hi hj ?_
    intro a b ha hb hab
    by_cases hd : (a, b) = (0, 0)
    · injection hd with e1 e2; subst e1; subst e2; rw [q0]; exact zero_le_one
    · rcases q1 (a, b) hd with g | g
      · exact g ▸ hp a b ha hb
      · exact g ▸ ih a b ha hb (by omega)

theorem sweep_mono {r : Rates K} (hr : NonNeg r) {p : Nat → Nat → K} (hg : Good p (sweep r p).1) :
    Good (sweep r p).1 (sweep r (sweep r p).1).1 := by
  have hn := sweep_nonneg hr (fun i j hi hj => (hg i j hi hj).1)
  intro i j hi hj
  refine ⟨hn i j hi hj, ?_⟩
  obtain ⟨s0, s1, _⟩ := sweep_spec r p
  obtain ⟨t0, t1, _⟩ := sweep_spec r (sweep r p).1
  revert i j
  refine level_split (fun c => (sweep r p).1 c.1 c.2 ≤ (sweep r (sweep r p).1).1 c.1 c.2) ?_
  intro m ih i j hi hj hm
  show (sweep r p).1 i j ≤ (sweep r (sweep r p).1).1 i j
  by_cases h0 : (i, j) = (0, 0)
  · injection h0 with e1 e2; subst e1; subst e2; rw [s0, t0]
  · obtain ⟨q, q0, q1, q2⟩ := s1 i j hi hj h0
    obtain ⟨u, u0, u1, u2⟩ := t1 i j hi hj h0
    rw [q2, u2]
    have := inflow_mono r hr 1 q u i j hi hj ?_
    · rwa [one_mul] at this
    · intro a b ha hb hab
      rw [one_mul]
      by_cases hd : (a, b) = (0, 0)
      · injection hd with e1 e2; subst e1; subst e2; rw [q0, u0]
      · have m1 : q a b ≤ (sweep r p).1 a b := by
          rcases q1 (a, b) hd with g | g
          · exact g ▸ (hg a b ha hb).2
          · exact le_of_eq g
        have m2 : (sweep r p).1 a b ≤ u a b := by
          rcases u1 (a, b) hd with g | g
          · exact ge_of_eq g
          · exact le_trans (ih a b ha hb (by omega)) (ge_of_eq g)
        exact le_trans m1 m2

/-- The returned array comes from a converged pass over an increasing iterate. -/
theorem occLoop_good {r : Rates K} (hr : NonNeg r) {P : Nat → Nat → K} (h : Balanced r P) :
    ∀ (k n : Nat) (s : (Nat → Nat → K) × Bool), k ≤ 11 → 12 ≤ n + k → Exact P s.1 k → Good s.1 (sweep r s.1).1 →
      ∃ p, (occLoop r n s) = ((sweep r p).1, true) ∧ (sweep r p).2 = true ∧ Good p (sweep r p).1 := by
  intro k
  induction hk : 11 - k generalizing k with
  | zero =>
    intro n s h1 h2 h3 h4
    have : k = 11 := by omega
    subst this
    obtain ⟨n, rfl⟩ : ∃ m, n = m + 1 := ⟨n - 1, by omega⟩
    have c := sweep_fixed h h3
    refine ⟨s.1, ?_, c, h4⟩
    show (if (sweep r s.1).2 = true then sweep r s.1 else _) = _
    rw [if_pos c, ← c]
  | succ d ih =>
    intro n s h1 h2 h3 h4
    obtain ⟨n, rfl⟩ : ∃ m, n = m + 1 := ⟨n - 1, by omega⟩
    by_cases c : (sweep r s.1).2 = true
    · refine ⟨s.1, ?_, c, h4⟩
      show (if (sweep r s.1).2 = true then sweep r s.1 else _) = _
      rw [if_pos c, ← c]
    · have : occLoop r (n + 1) s = occLoop r n (sweep r s.1) := by
        show (if (sweep r s.1).2 = true then sweep r s.1 else _) = _
        rw [if_neg c]
      rw [this]
      exact ih (k + 1) (by omega) n (sweep r s.1) (by omega) (by omega) (sweep_exact h h3) (sweep_mono hr h4)

/-- A converged pass is within one part in a million per level of the solution. -/
theorem close {r : Rates K} (hr : NonNeg r) {P p : Nat → Nat → K} (h : Balanced r P)
    (hg : Good p (sweep r p).1) (hc : (sweep r p).2 = true) :
    ∀ i j, i < 6 → j < 6 → (1 - 1 / 1000000) ^ (i + j) * P i j ≤ (sweep r p).1 i j ∧ (sweep r p).1 i j ≤ P i j := by
  obtain ⟨s0, s1, s2⟩ := sweep_spec r p
  have hc := s2.1 hc
  have he : (0 : K) ≤ 1 - 1 / 1000000 := by norm_num
  have hn := sweep_nonneg hr (fun i j hi hj => (hg i j hi hj).1)
  have old : ∀ i j, i < 6 → j < 6 → (i, j) ≠ (0, 0) → (1 - 1 / 1000000) * (sweep r p).1 i j ≤ p i j := by
    intro i j hi hj h0
    rcases lt_or_eq_of_le (hn i j hi hj) with g | g
    · have := not_and.1 (hc i j hi hj h0) g
      rw [not_lt, abs_le] at this
      have h1 := this.1
      unfold occEps at h1
      have h2 : (1 - 1 / 1000000 : K) ≤ p i j / (sweep r p).1 i j := by linarith
      exact (le_div_iff₀ g).1 h2
    · rw [← g, mul_zero]; exact (hg i j hi hj).1
  refine level_split (fun c => (1 - 1 / 1000000) ^ (c.1 + c.2) * P c.1 c.2 ≤ (sweep r p).1 c.1 c.2 ∧
    (sweep r p).1 c.1 c.2 ≤ P c.1 c.2) ?_
  intro m ih i j hi hj hm
  show (1 - 1 / 1000000) ^ (i + j) * P i j ≤ (sweep r p).1 i j ∧ (sweep r p).1 i j ≤ P i j
  by_cases h0 : (i, j) = (0, 0)
  · injection h0 with e1 e2; subst e1; subst e2; rw [s0, h.1]; simp
  · obtain ⟨q, q0, q1, q2⟩ := s1 i j hi hj h0
    rw [q2, balanced_inflow h i j hi hj h0]
    constructor
    · refine inflow_mono r hr _ P q i j hi hj ?_
      intro a b ha hb hab
      by_cases hd : (a, b) = (0, 0)
      · injection hd with e1 e2; subst e1; subst e2
        rw [q0, h.1, mul_one]
        exact pow_le_one₀ he (by norm_num)
      · have i1 : (1 - 1 / 1000000) ^ (a + b) * P a b ≤ (sweep r p).1 a b := (ih a b ha hb (by omega)).1
        have i2 : (1 - 1 / 1000000) * (sweep r p).1 a b ≤ q a b := by
          rcases q1 (a, b) hd with g | g
          · exact (old a b ha hb hd).trans (ge_of_eq g)
          · refine le_trans ?_ (ge_of_eq g)
            have := hn a b ha hb
            show (1 - 1 / 1000000) * (sweep r p).1 a b ≤ (sweep r p).1 a b
            linarith
        have : i + j = (a + b) + 1 := by omega
        rw [this, pow_succ, mul_comm (_ ^ _) (1 - 1 / 1000000 : K), mul_assoc]
        exact le_trans (mul_le_mul_of_nonneg_left i1 he) i2
    · have := inflow_mono r hr 1 q P i j hi hj ?_
      · rwa [one_mul] at this
      · intro a b ha hb hab
        rw [one_mul]
        have i1 : (sweep r p).1 a b ≤ P a b := (ih a b ha hb (by omega)).2
        by_cases hd : (a, b) = (0, 0)
        · injection hd with e1 e2; subst e1; subst e2; rw [q0, h.1]
        · rcases q1 (a, b) hd with g | g
          · exact (le_of_eq g).trans (((hg a b ha hb).2).trans i1)
          · exact (le_of_eq g).trans i1

/-- The first pass, from the cleared array. -/
theorem good_start {r : Rates K} (hr : NonNeg r) : Good (fun _ _ => 0) (sweep r (fun _ _ => 0)).1 :=
  fun i j hi hj => ⟨le_rfl, sweep_nonneg hr (fun _ _ _ _ => le_rfl) i j hi hj⟩

/-! ### The solution exists and is unique -/

/-- Iterates of the master equation. -/
def solve (r : Rates K) : Nat → Nat → Nat → K
  | 0 => fun _ _ => 0
  | n + 1 => fun i j => if i = 0 ∧ j = 0 then 1 else inflow r (solve r n) i j

theorem solve_stable (r : Rates K) (n : Nat) : ∀ k i j, i < 6 → j < 6 → i + j < n → solve r (n + k) i j = solve r n i j := by
  induction n with
  | zero => intro k i j _ _ h; omega
  | succ n ih =>
    intro k i j hi hj h
    rw [show n + 1 + k = (n + k) + 1 by omega]
    show (if i = 0 ∧ j = 0 then 1 else inflow r (solve r (n + k)) i j) = if i = 0 ∧ j = 0 then 1 else inflow r (solve r n) i j
    by_cases h0 : i = 0 ∧ j = 0
    · rw [if_pos h0, if_pos h0]
    · rw [if_neg h0, if_neg h0]
      exact inflow_congr r _ _ i j hi hj (fun a b ha hb hab => ih k a b ha hb (by omega))

theorem balanced_exists (r : Rates K) : ∃ P : Nat → Nat → K, Balanced r P := by
  refine ⟨solve r 11, rfl, ?_⟩
  intro i j hi hj h0
  rw [← inflow_eq r _ i j hi hj]
  rw [show solve r 11 i j = solve r (11 + 1) i j from (solve_stable r 11 1 i j hi hj (by omega)).symm]
  show (if i = 0 ∧ j = 0 then 1 else inflow r (solve r 11) i j) = _
  rw [if_neg (by rintro ⟨rfl, rfl⟩; exact h0 rfl)]

theorem balanced_unique {r : Rates K} {P Q : Nat → Nat → K} (hP : Balanced r P) (hQ : Balanced r Q) :
    ∀ i j, i < 6 → j < 6 → P i j = Q i j := by
  refine level_split (fun c => P c.1 c.2 = Q c.1 c.2) ?_
  intro m ih i j hi hj hm
  show P i j = Q i j
  by_cases h0 : (i, j) = (0, 0)
  · injection h0 with e1 e2; subst e1; subst e2; rw [hP.1, hQ.1]
  · rw [balanced_inflow hP i j hi hj h0, balanced_inflow hQ i j hi hj h0]
    exact inflow_congr r _ _ i j hi hj (fun a b ha hb hab => ih a b ha hb (by omega))

end CGMF.Exc

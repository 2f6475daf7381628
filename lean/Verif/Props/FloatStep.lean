import Verif.Model.FloatStep
import Verif.Props.FloatBin
import Verif.Props.FloatForced
import Verif.Props.FloatBranch
import Verif.Props.FloatSumChance

/-!
# C156: a pass of the decay in the continuum, over all random bits
-/

namespace CGMF.Props

open CGMF CGMF.Fp CGMF.Twist CGMF.Pick
open CGMF.HF (forced forcedTo)

variable {fl : ℝ → ℝ}

/-- Specification: the part of the interval from `lo` to `hi` below `x`. -/
noncomputable def below (lo hi x : ℝ) : ℝ := (max lo (min hi x) - lo) / (hi - lo)

theorem below_range {lo hi : ℝ} (x : ℝ) (h : lo < hi) : 0 ≤ below lo hi x ∧ below lo hi x ≤ 1 := by
  have w : 0 < hi - lo := by linarith
  unfold below
  refine ⟨div_nonneg (by linarith [le_max_left lo (min hi x)]) w.le, ?_⟩
  rw [div_le_one w]
  linarith [max_le h.le (min_le_left hi x)]

/-- The energies at most `x` of a bin, wherever `x` is. -/
theorem below_le (h : Double fl) {E top : ℝ} (x : ℝ) {n k : Nat} (hn : Fp.total fl E = some n) (hk : k < contBins fl E n top) :
    |chance (fun w => within fl (excitation fl E n) top k (rng fl w) ≤ x) -
      below (lowerEnd fl (excitation fl E n) top k) (upperEnd fl (excitation fl E n) k) x| ≤ 1 / 2 ^ 36 := by
  obtain ⟨-, -, -, -, wd⟩ := bin_ends h hn hk
  norm_num at wd
  refine bin_chance h hn hk le_rfl (le_max_left _ _) (max_le (by linarith) (min_le_left _ _)) (fun w hw => ?_) (fun w _ hw => ?_)
  · obtain ⟨i1, i2⟩ := C155_inside h hn hk w
    exact ⟨i1, le_max_of_le_right (le_min i2 hw)⟩
  · obtain ⟨i1, -⟩ := C155_inside h hn hk w
    rcases lt_max_iff.1 hw with c | c
    · linarith
    · exact (lt_min_iff.1 c).2.le

/-- The energies below `x`. -/
theorem below_lt (h : Double fl) {E top : ℝ} (x : ℝ) {n k : Nat} (hn : Fp.total fl E = some n) (hk : k < contBins fl E n top) :
    |chance (fun w => within fl (excitation fl E n) top k (rng fl w) < x) -
      below (lowerEnd fl (excitation fl E n) top k) (upperEnd fl (excitation fl E n) k) x| ≤ 1 / 2 ^ 36 := by
  obtain ⟨-, -, -, -, wd⟩ := bin_ends h hn hk
  norm_num at wd
  refine bin_chance h hn hk le_rfl (le_max_left _ _) (max_le (by linarith) (min_le_left _ _)) (fun w hw => ?_) (fun w _ hw => ?_)
  · obtain ⟨i1, i2⟩ := C155_inside h hn hk w
    exact ⟨i1, le_max_of_le_right (le_min i2 hw.le)⟩
  · obtain ⟨i1, -⟩ := C155_inside h hn hk w
    rcases lt_max_iff.1 hw with c | c
    · linarith
    · exact (lt_min_iff.1 c).2

/-- The energies from `y` to `x`. -/
theorem below_between (h : Double fl) {E top : ℝ} {x y : ℝ} (yx : y ≤ x) {n k : Nat} (hn : Fp.total fl E = some n) (hk : k < contBins fl E n top) :
    |chance (fun w => ¬ within fl (excitation fl E n) top k (rng fl w) < y ∧ within fl (excitation fl E n) top k (rng fl w) ≤ x) -
      (below (lowerEnd fl (excitation fl E n) top k) (upperEnd fl (excitation fl E n) k) x -
        below (lowerEnd fl (excitation fl E n) top k) (upperEnd fl (excitation fl E n) k) y)| ≤ 1 / 2 ^ 36 := by
  obtain ⟨-, -, -, -, wd⟩ := bin_ends h hn hk
  norm_num at wd
  unfold below
  rw [← sub_div, sub_sub_sub_cancel_right]
  refine bin_chance h hn hk (le_max_left _ _) (max_le_max le_rfl (min_le_min le_rfl yx)) (max_le (by linarith) (min_le_left _ _))
    (fun w hw => ?_) (fun w hw1 hw2 => ?_)
  · obtain ⟨i1, i2⟩ := C155_inside h hn hk w
    exact ⟨max_le i1 ((min_le_right _ _).trans (not_lt.1 hw.1)), le_max_of_le_right (le_min i2 hw.2)⟩
  · obtain ⟨i1, i2⟩ := C155_inside h hn hk w
    constructor
    · rw [not_lt]
      have c := (max_lt_iff.1 hw1).2
      rcases min_lt_iff.1 c with c | c
      · linarith
      · exact c.le
    · rcases lt_max_iff.1 hw2 with c | c
      · linarith
      · exact (lt_min_iff.1 c).2.le

theorem forcedTo_le_one (levels : List (Level ℝ)) (p J : Int) (i : Nat) : forcedTo levels p J i ≤ 1 := by
  classical
  unfold forcedTo
  split_ifs with h1 h2 h3
  · obtain ⟨l, a, b⟩ := h1
    have : 0 < levels.countP fun l => decide (HF.Preferred l J p) := List.countP_pos_iff.mpr ⟨l, a, by simpa using b⟩
    have : (1 : ℝ) ≤ (levels.countP fun l => decide (HF.Preferred l J p) : ℕ) := by exact_mod_cast this
    exact (div_le_one (by linarith)).2 this
  · exact zero_le_one
  · exact le_rfl
  · exact zero_le_one

variable {cut top0 top1 E0 E1 : ℝ} {n0 n1 : Nat} {levels : List (Level ℝ)} {p j : Int} {ts : List (Target × ℝ)}

/-- The choice of a state. -/
theorem pick_near (h : Double fl) (hp : ∀ t ∈ ts, 0 ≤ t.2) (hlen : ts.length ≤ 2 ^ 40) (hsum : (ts.map (·.2)).sum ≤ 5 / 4)
    {i : Nat} {t : Target} {q : ℝ} (hi : ts[i]? = some (t, q)) :
    |chance (fun w => pickSum fl 0 (rng fl w) (ts.map (·.2)) = some i) - q| ≤ (i + 3) / 2 ^ 50 + max 0 ((ts.map (·.2)).sum - 1) := by
  obtain ⟨hlt, e⟩ := List.getElem?_eq_some_iff.1 hi
  have := C126_chance h (l := ts.map (·.2)) (i := i) (fun x hx => by obtain ⟨t, ht, rfl⟩ := List.mem_map.1 hx; exact hp t ht) (by simpa using hlen) hsum (by simpa using hlt)
  rwa [List.getElem_map, e] at this

/-- The first number of several decides one thing and the others another. -/
theorem chance_first (k : Nat) (E : Pair → Prop) (F : List ℝ → Prop) {P : List ℝ → Prop}
    (iff : ∀ w l, P (rng fl w :: l) ↔ E w ∧ F l) :
    chance (fun u : Fin (k + 1) → Pair => P (List.ofFn fun i => rng fl (u i)))
      = chance E * chance fun u : Fin k → Pair => F (List.ofFn fun i => rng fl (u i)) := by
  have := chance_succ k E fun l => F (l.map (rng fl))
  simp only [List.map_ofFn] at this
  refine Eq.trans (chance_congr fun u => ?_) this
  rw [List.ofFn_succ, iff]
  rfl

theorem chance_none (F : List ℝ → Prop) (hF : F []) : chance (fun u : Fin 0 → Pair => F (List.ofFn fun i => rng fl (u i))) = 1 := by
  rw [← chance_true (α := Fin 0 → Pair)]
  exact chance_congr fun u => by simpa using hF

theorem pass_cons (ex0 ex1 : Nat → ℝ) (r : ℝ) (l : List ℝ) :
    pass fl cut ex0 ex1 top0 top1 levels p j ts (r :: l) = match pickSum fl 0 r (ts.map (·.2)) with
      | none => (do let q ← forced levels p j; pure (.forced none q) : Rnd ℝ Reached) l
      | some i => (match ts[i]? with
        | some (.level e, _) => pure (.state i e)
        | some (.bin true k, _) => do
          let r' ← Rnd.draw
          if within fl ex0 top0 k r' < fl (top0 + cut) then do
            let q ← forced levels p j
            pure (.forced (some i) q)
          else pure (.state i (within fl ex0 top0 k r'))
        | some (.bin false k, _) => do
          let r' ← Rnd.draw
          pure (.state i (within fl ex1 top1 k r'))
        | none => fun _ => .ub : Rnd ℝ Reached) l := by
  unfold pass
  show (match pickSum fl 0 r (ts.map (·.2)) with | none => _ | some i => _ : Rnd ℝ Reached) l = _
  cases pickSum fl 0 r (ts.map (·.2)) <;> rfl

theorem forced_result (F : Nat → Reached) (s : List ℝ) (x : Reached) (t : List ℝ) :
    (do let q ← forced levels p j; pure (F q) : Rnd ℝ Reached) s = .ok (x, t) ↔ ∃ q, forced levels p j s = .ok (q, t) ∧ F q = x := by
  show Rnd.seq _ _ s = _ ↔ _
  unfold Rnd.seq
  cases forced levels p j s with
  | ok v =>
    obtain ⟨q, t'⟩ := v
    show Out.ok (F q, t') = Out.ok (x, t) ↔ _
    simp only [Out.ok.injEq, Prod.mk.injEq]
    constructor
    · rintro ⟨rfl, rfl⟩; exact ⟨q, ⟨rfl, rfl⟩, rfl⟩
    · rintro ⟨q', ⟨rfl, rfl⟩, rfl⟩; exact ⟨rfl, rfl⟩
  | exit => simp
  | ub => simp
  | more => simp

/-- Nothing but the forced transition of a state that was not chosen ends in one without a choice, and only state `i` ends in `i`. -/
theorem pass_other (ex0 ex1 : Nat → ℝ) {r : ℝ} {l t : List ℝ} {x : Reached} {i : Nat}
    (hx : (∃ e, x = .state i e) ∨ ∃ q, x = .forced (some i) q)
    (hok : pass fl cut ex0 ex1 top0 top1 levels p j ts (r :: l) = .ok (x, t)) : pickSum fl 0 r (ts.map (·.2)) = some i := by
  rw [pass_cons] at hok
  cases e : pickSum fl 0 r (ts.map (·.2)) with
  | none =>
    rw [e] at hok
    obtain ⟨q, -, h2⟩ := (forced_result (Reached.forced none) _ _ _).1 hok
    subst h2
    rcases hx with ⟨e, h⟩ | ⟨q, h⟩
    · cases h
    · cases h
  | some i' =>
    rw [e] at hok
    simp only at hok
    have key : (∃ e, x = .state i' e) ∨ ∃ q, x = .forced (some i') q := by
      rcases et : ts[i']? with _ | ⟨⟨_ | _, k⟩ | e, _⟩ <;> simp only [et] at hok
      · cases hok
      · cases l with
        | nil => cases hok
        | cons r' l => cases hok; exact .inl ⟨_, rfl⟩
      · cases l with
        | nil => cases hok
        | cons r' l =>
          change (if within fl ex0 top0 _ r' < fl (top0 + cut) then _ else _ : Rnd ℝ Reached) l = _ at hok
          split_ifs at hok with c
          · obtain ⟨q, -, h2⟩ := (forced_result (Reached.forced (some i')) _ _ _).1 hok
            exact .inr ⟨q, h2.symm⟩
          · cases hok; exact .inl ⟨_, rfl⟩
      · cases hok; exact .inl ⟨_, rfl⟩
    rcases hx with ⟨e, h⟩ | ⟨q, h⟩ <;> rcases key with ⟨e', h'⟩ | ⟨q', h'⟩ <;> rw [h] at h' <;> cases h' <;> rfl

/-- **C156**, levels: a level among the states is reached with the probability of its population. -/
theorem C156_level (h : Double fl) (ex0 ex1 : Nat → ℝ) (hp : ∀ t ∈ ts, 0 ≤ t.2) (hlen : ts.length ≤ 2 ^ 40) (hsum : (ts.map (·.2)).sum ≤ 5 / 4)
    {i : Nat} {e q : ℝ} (hi : ts[i]? = some (.level e, q)) :
    |chance (fun u : Fin 1 → Pair => pass fl cut ex0 ex1 top0 top1 levels p j ts (List.ofFn fun k => rng fl (u k)) = .ok (.state i e, [])) - q|
      ≤ (i + 3) / 2 ^ 50 + max 0 ((ts.map (·.2)).sum - 1) := by
  rw [chance_first 0 (fun w => pickSum fl 0 (rng fl w) (ts.map (·.2)) = some i) (fun l => l = [])
    (P := fun s => pass fl cut ex0 ex1 top0 top1 levels p j ts s = .ok (.state i e, [])), chance_none (fun l => l = []) rfl, mul_one]
  · exact pick_near h hp hlen hsum hi
  · intro w l
    constructor
    · intro hok
      have hc := pass_other ex0 ex1 (.inl ⟨e, rfl⟩) hok
      rw [pass_cons, hc] at hok
      simp only [hi] at hok
      cases hok
      exact ⟨hc, rfl⟩
    · rintro ⟨hc, rfl⟩
      rw [pass_cons, hc]
      simp only [hi]
      rfl

/-- **C156**, continuum of the decaying nucleus: a state of bin `k` is reached with an energy between the cut and `x` with the probability
of its population times the part of the bin between them. -/
theorem C156_photon (h : Double fl) (ex1 : Nat → ℝ) (hp : ∀ t ∈ ts, 0 ≤ t.2) (hlen : ts.length ≤ 2 ^ 40) (hsum : (ts.map (·.2)).sum ≤ 5 / 4)
    (hn : Fp.total fl E0 = some n0) {i k : Nat} {q x : ℝ} (hi : ts[i]? = some (.bin true k, q)) (hk : k < contBins fl E0 n0 top0)
    (hx : fl (top0 + cut) ≤ x) :
    |chance (fun u : Fin 2 → Pair => ∃ e ≤ x, pass fl cut (excitation fl E0 n0) ex1 top0 top1 levels p j ts (List.ofFn fun k => rng fl (u k)) =
        .ok (.state i e, [])) -
      (below (lowerEnd fl (excitation fl E0 n0) top0 k) (upperEnd fl (excitation fl E0 n0) k) x -
        below (lowerEnd fl (excitation fl E0 n0) top0 k) (upperEnd fl (excitation fl E0 n0) k) (fl (top0 + cut))) * q|
      ≤ 1 / 2 ^ 36 + ((i + 3) / 2 ^ 50 + max 0 ((ts.map (·.2)).sum - 1)) := by
  obtain ⟨-, -, -, -, wd⟩ := bin_ends h hn hk
  norm_num at wd
  rw [chance_first 1 (fun w => pickSum fl 0 (rng fl w) (ts.map (·.2)) = some i)
    (fun l => ∃ r, l = [r] ∧ ¬ within fl (excitation fl E0 n0) top0 k r < fl (top0 + cut) ∧ within fl (excitation fl E0 n0) top0 k r ≤ x)
    (P := fun s => ∃ e ≤ x, pass fl cut (excitation fl E0 n0) ex1 top0 top1 levels p j ts s = .ok (.state i e, [])),
    chance_first 0 (fun w => ¬ within fl (excitation fl E0 n0) top0 k (rng fl w) < fl (top0 + cut) ∧
      within fl (excitation fl E0 n0) top0 k (rng fl w) ≤ x) (fun l => l = [])
      (P := fun l => ∃ r, l = [r] ∧ ¬ within fl (excitation fl E0 n0) top0 k r < fl (top0 + cut) ∧ within fl (excitation fl E0 n0) top0 k r ≤ x),
    chance_none (fun l => l = []) rfl, mul_one, mul_comm]
  · have b := below_range x (show lowerEnd fl (excitation fl E0 n0) top0 k < upperEnd fl (excitation fl E0 n0) k by linarith)
    have b' := below_range (fl (top0 + cut)) (show lowerEnd fl (excitation fl E0 n0) top0 k < upperEnd fl (excitation fl E0 n0) k by linarith)
    refine product_near (below_between h hx hn hk) (pick_near h hp hlen hsum hi) (chance_nonneg _) (chance_le_one _) ?_ (by linarith)
    unfold below
    rw [← sub_div, sub_sub_sub_cancel_right]
    exact div_nonneg (sub_nonneg.2 (max_le_max le_rfl (min_le_min le_rfl hx))) (by linarith)
  · intro w l
    constructor
    · rintro ⟨r, h1, h2, h3⟩
      obtain ⟨rfl, rfl⟩ := List.cons_eq_cons.1 h1
      exact ⟨⟨h2, h3⟩, rfl⟩
    · rintro ⟨⟨h2, h3⟩, rfl⟩
      exact ⟨_, rfl, h2, h3⟩
  · intro w l
    constructor
    · rintro ⟨e, he, hok⟩
      have hc := pass_other _ ex1 (.inl ⟨e, rfl⟩) hok
      rw [pass_cons, hc] at hok
      simp only [hi] at hok
      refine ⟨hc, ?_⟩
      cases l with
      | nil => cases hok
      | cons r' l =>
        change (if within fl (excitation fl E0 n0) top0 k r' < fl (top0 + cut) then _ else _ : Rnd ℝ Reached) l = _ at hok
        split_ifs at hok with c
        · obtain ⟨q, -, h2⟩ := (forced_result (Reached.forced (some i)) _ _ _).1 hok
          cases h2
        · cases hok
          exact ⟨r', rfl, c, he⟩
    · rintro ⟨hc, r', rfl, c, he⟩
      refine ⟨_, he, ?_⟩
      rw [pass_cons, hc]
      simp only [hi]
      show (if within fl (excitation fl E0 n0) top0 k r' < fl (top0 + cut) then _ else _ : Rnd ℝ Reached) [] = _
      rw [if_neg c]
      rfl

/-- **C156**, continuum after a neutron: a state of bin `k` is reached with an energy of at most `x` with the probability of its
population times the part of the bin below `x`. -/
theorem C156_neutron (h : Double fl) (ex0 : Nat → ℝ) (hp : ∀ t ∈ ts, 0 ≤ t.2) (hlen : ts.length ≤ 2 ^ 40) (hsum : (ts.map (·.2)).sum ≤ 5 / 4)
    (hn : Fp.total fl E1 = some n1) {i k : Nat} {q : ℝ} (x : ℝ) (hi : ts[i]? = some (.bin false k, q)) (hk : k < contBins fl E1 n1 top1) :
    |chance (fun u : Fin 2 → Pair => ∃ e ≤ x, pass fl cut ex0 (excitation fl E1 n1) top0 top1 levels p j ts (List.ofFn fun k => rng fl (u k)) =
        .ok (.state i e, [])) -
      below (lowerEnd fl (excitation fl E1 n1) top1 k) (upperEnd fl (excitation fl E1 n1) k) x * q|
      ≤ 1 / 2 ^ 36 + ((i + 3) / 2 ^ 50 + max 0 ((ts.map (·.2)).sum - 1)) := by
  obtain ⟨-, -, -, -, wd⟩ := bin_ends h hn hk
  norm_num at wd
  rw [chance_first 1 (fun w => pickSum fl 0 (rng fl w) (ts.map (·.2)) = some i)
    (fun l => ∃ r, l = [r] ∧ within fl (excitation fl E1 n1) top1 k r ≤ x)
    (P := fun s => ∃ e ≤ x, pass fl cut ex0 (excitation fl E1 n1) top0 top1 levels p j ts s = .ok (.state i e, [])),
    chance_first 0 (fun w => within fl (excitation fl E1 n1) top1 k (rng fl w) ≤ x) (fun l => l = [])
      (P := fun l => ∃ r, l = [r] ∧ within fl (excitation fl E1 n1) top1 k r ≤ x),
    chance_none (fun l => l = []) rfl, mul_one, mul_comm]
  · have b := below_range x (show lowerEnd fl (excitation fl E1 n1) top1 k < upperEnd fl (excitation fl E1 n1) k by linarith)
    exact product_near (below_le h x hn hk) (pick_near h hp hlen hsum hi) (chance_nonneg _) (chance_le_one _) b.1 b.2
  · intro w l
    constructor
    · rintro ⟨r, h1, h3⟩
      obtain ⟨rfl, rfl⟩ := List.cons_eq_cons.1 h1
      exact ⟨h3, rfl⟩
    · rintro ⟨h3, rfl⟩
      exact ⟨_, rfl, h3⟩
  · intro w l
    constructor
    · rintro ⟨e, he, hok⟩
      have hc := pass_other ex0 _ (.inl ⟨e, rfl⟩) hok
      rw [pass_cons, hc] at hok
      simp only [hi] at hok
      refine ⟨hc, ?_⟩
      cases l with
      | nil => cases hok
      | cons r' l =>
        cases hok
        exact ⟨r', rfl, he⟩
    · rintro ⟨hc, r', rfl, he⟩
      refine ⟨_, he, ?_⟩
      rw [pass_cons, hc]
      simp only [hi]
      rfl

/-- **C156**, the cut: a state of bin `k` of the decaying nucleus is chosen, found below the cut and forced to level `m` with the probability
of its population times the part of the bin below the cut times that of the forced transition. -/
theorem C156_cut (h : Double fl) (ex1 : Nat → ℝ) (hp : ∀ t ∈ ts, 0 ≤ t.2) (hlen : ts.length ≤ 2 ^ 40) (hsum : (ts.map (·.2)).sum ≤ 5 / 4)
    (hn : Fp.total fl E0 = some n0) {i k c : Nat} {q : ℝ} (m : Nat) (hi : ts[i]? = some (.bin true k, q)) (hk : k < contBins fl E0 n0 top0)
    (hc : c = levels.countP fun l => HF.Preferred l (2 * j) p) :
    |chance (fun u : Fin (c + 2) → Pair => pass fl cut (excitation fl E0 n0) ex1 top0 top1 levels p j ts (List.ofFn fun k => rng fl (u k)) =
        .ok (.forced (some i) m, [])) -
      forcedTo levels p (2 * j) m * below (lowerEnd fl (excitation fl E0 n0) top0 k) (upperEnd fl (excitation fl E0 n0) k) (fl (top0 + cut)) * q|
      ≤ 3 * (c : ℝ) ^ 2 / 2 ^ 53 + 1 / 2 ^ 36 + ((i + 3) / 2 ^ 50 + max 0 ((ts.map (·.2)).sum - 1)) := by
  obtain ⟨-, -, -, -, wd⟩ := bin_ends h hn hk
  norm_num at wd
  rw [chance_first (c + 1) (fun w => pickSum fl 0 (rng fl w) (ts.map (·.2)) = some i)
    (fun l => ∃ r l', l = r :: l' ∧ within fl (excitation fl E0 n0) top0 k r < fl (top0 + cut) ∧ forced levels p j l' = .ok (m, []))
    (P := fun s => pass fl cut (excitation fl E0 n0) ex1 top0 top1 levels p j ts s = .ok (.forced (some i) m, [])),
    chance_first c (fun w => within fl (excitation fl E0 n0) top0 k (rng fl w) < fl (top0 + cut)) (fun l => forced levels p j l = .ok (m, []))
      (P := fun l => ∃ r l', l = r :: l' ∧ within fl (excitation fl E0 n0) top0 k r < fl (top0 + cut) ∧ forced levels p j l' = .ok (m, []))]
  · have b := below_range (fl (top0 + cut)) (show lowerEnd fl (excitation fl E0 n0) top0 k < upperEnd fl (excitation fl E0 n0) k by linarith)
    have f0 := HF.forcedTo_nonneg levels p (2 * j) m
    have f1 := forcedTo_le_one levels p (2 * j) m
    have t := product_near (C154_forced h levels p j m c hc) (below_lt h (fl (top0 + cut)) hn hk) (chance_nonneg _) (chance_le_one _) f0 f1
    have := product_near t (pick_near h hp hlen hsum hi) (chance_nonneg _) (chance_le_one _) (mul_nonneg f0 b.1)
      (mul_le_one₀ f1 b.1 b.2)
    rwa [mul_comm (chance _) (chance _ * chance _), mul_comm (chance fun w => within fl _ _ _ _ < _) (chance _)]
  · intro w l
    constructor
    · rintro ⟨r, l', h1, h2, h3⟩
      obtain ⟨rfl, rfl⟩ := List.cons_eq_cons.1 h1
      exact ⟨h2, h3⟩
    · rintro ⟨h2, h3⟩
      exact ⟨_, _, rfl, h2, h3⟩
  · intro w l
    constructor
    · intro hok
      have hc := pass_other _ ex1 (.inr ⟨m, rfl⟩) hok
      rw [pass_cons, hc] at hok
      simp only [hi] at hok
      refine ⟨hc, ?_⟩
      cases l with
      | nil => cases hok
      | cons r' l =>
        change (if within fl (excitation fl E0 n0) top0 k r' < fl (top0 + cut) then _ else _ : Rnd ℝ Reached) l = _ at hok
        split_ifs at hok with c
        · obtain ⟨q, h1, h2⟩ := (forced_result (Reached.forced (some i)) _ _ _).1 hok
          cases h2
          exact ⟨r', l, rfl, c, h1⟩
        · cases hok
    · rintro ⟨hc, r', l', rfl, c, hf⟩
      rw [pass_cons, hc]
      simp only [hi]
      show (if within fl (excitation fl E0 n0) top0 k r' < fl (top0 + cut) then _ else _ : Rnd ℝ Reached) l' = _
      rw [if_pos c]
      exact (forced_result (Reached.forced (some i)) _ _ _).2 ⟨m, hf, rfl⟩

/-- **C156**, no choice: the transition is forced to level `m` without a choice with the probability the populations leave times that of
the forced transition. -/
theorem C156_none (h : Double fl) (ex0 ex1 : Nat → ℝ) (hp : ∀ t ∈ ts, 0 ≤ t.2) (hlen : ts.length ≤ 2 ^ 40) (hsum : (ts.map (·.2)).sum ≤ 5 / 4)
    {c : Nat} (m : Nat) (hc : c = levels.countP fun l => HF.Preferred l (2 * j) p) :
    |chance (fun u : Fin (c + 1) → Pair => pass fl cut ex0 ex1 top0 top1 levels p j ts (List.ofFn fun k => rng fl (u k)) =
        .ok (.forced none m, [])) - forcedTo levels p (2 * j) m * max 0 (1 - (ts.map (·.2)).sum)|
      ≤ 3 * (c : ℝ) ^ 2 / 2 ^ 53 + (ts.length + 3) / 2 ^ 50 := by
  rw [chance_first c (fun w => pickSum fl 0 (rng fl w) (ts.map (·.2)) = none) (fun l => forced levels p j l = .ok (m, []))
    (P := fun s => pass fl cut ex0 ex1 top0 top1 levels p j ts s = .ok (.forced none m, [])), mul_comm]
  · have n := C126_chance_none h (l := ts.map (·.2)) (fun x hx => by obtain ⟨t, ht, rfl⟩ := List.mem_map.1 hx; exact hp t ht) (by simpa using hlen) hsum
    rw [List.length_map] at n
    exact product_near (C154_forced h levels p j m c hc) n (chance_nonneg _) (chance_le_one _) (HF.forcedTo_nonneg _ _ _ _) (forcedTo_le_one _ _ _ _)
  · intro w l
    constructor
    · intro hok
      cases e : pickSum fl 0 (rng fl w) (ts.map (·.2)) with
      | none =>
        rw [pass_cons, e] at hok
        obtain ⟨q, h1, h2⟩ := (forced_result (Reached.forced none) _ _ _).1 hok
        cases h2
        exact ⟨rfl, h1⟩
      | some i =>
        exfalso
        rw [pass_cons, e] at hok
        simp only at hok
        rcases et : ts[i]? with _ | ⟨⟨_ | _, k⟩ | e, _⟩ <;> simp only [et] at hok
        · cases hok
        · cases l with
          | nil => cases hok
          | cons r' l => cases hok
        · cases l with
          | nil => cases hok
          | cons r' l =>
            change (if within fl ex0 top0 _ r' < fl (top0 + cut) then _ else _ : Rnd ℝ Reached) l = _ at hok
            split_ifs at hok with c
            · obtain ⟨q, -, h2⟩ := (forced_result (Reached.forced (some i)) _ _ _).1 hok
              cases h2
            · cases hok
        · cases hok
    · rintro ⟨hc, hf⟩
      rw [pass_cons, hc]
      exact (forced_result (Reached.forced none) _ _ _).2 ⟨m, hf, rfl⟩

/-- A nucleus with 8 MeV and only its ground state, with half of the population in a state of the first bin and half in the ground state. -/
example (h : Double fl) : ∃ n, Fp.total fl 8 = some n ∧
    |chance (fun u : Fin 2 → Pair => ∃ e ≤ 8, pass fl (1 / 64) (excitation fl 8 n) (fun _ => 0) 0 0 [⟨0, 0, 1, 0, []⟩] 1 0
      [(.bin true 0, 1 / 2), (.level 0, 1 / 2)] (List.ofFn fun k => rng fl (u k)) = .ok (.state 0 e, [])) - 1 / 2| ≤ 1 / 2 ^ 35 ∧
    |chance (fun u : Fin 1 → Pair => pass fl (1 / 64) (excitation fl 8 n) (fun _ => 0) 0 0 [⟨0, 0, 1, 0, []⟩] 1 0
      [(.bin true 0, 1 / 2), (.level 0, 1 / 2)] (List.ofFn fun k => rng fl (u k)) = .ok (.state 1 0, [])) - 1 / 2| ≤ 1 / 2 ^ 48 := by
  obtain ⟨n, hn⟩ := (C131_mesh h 8).1 (by norm_num)
  have n2 := Fp.total_ge (by norm_num) h hn
  have hk : 0 < contBins fl 8 n 0 := by
    simp only [contBins, if_true]
    omega
  have d8 : IsDouble (8 : ℝ) := by simpa using isFloat_int (p := 53) (emin := -1074) (n := 8) (by norm_num) (by omega) (by omega)
  have top := C131_top h d8 (by norm_num) hn
  have c : fl (0 + 1 / 64) = 1 / 64 := by
    rw [zero_add]
    exact h.fix ⟨1, -6, by norm_num, by norm_num, by norm_num⟩
  have hp : ∀ t ∈ [((.bin true 0 : Target), (1 / 2 : ℝ)), (.level 0, 1 / 2)], 0 ≤ t.2 := by
    intro t ht
    simp only [List.mem_cons, List.not_mem_nil, or_false] at ht
    rcases ht with rfl | rfl <;> norm_num
  refine ⟨n, hn, ?_, ?_⟩
  · have := C156_photon (top1 := 0) (levels := [⟨0, 0, 1, 0, []⟩]) (p := 1) (j := 0) h (fun _ => 0) hp (by norm_num) (by norm_num) hn
      (i := 0) (x := 8) rfl hk (by rw [c]; norm_num)
    obtain ⟨-, -, -, -, wd⟩ := bin_ends h hn hk
    obtain ⟨e1, -, e3, -⟩ := C155_ends h hn hk
    have e3 := e3 rfl
    rw [top] at e1 e3
    have x0 := excitation_nonneg h hn (0 + 1)
    have b1 : below (lowerEnd fl (excitation fl 8 n) 0 0) (upperEnd fl (excitation fl 8 n) 0) 8 = 1 := by
      unfold below
      norm_num at wd
      rw [e3] at wd ⊢
      rw [min_self, max_eq_right (by linarith), div_self (by linarith)]
    have b2 : below (lowerEnd fl (excitation fl 8 n) 0 0) (upperEnd fl (excitation fl 8 n) 0) (fl (0 + 1 / 64)) = 0 := by
      unfold below
      have := (abs_le.1 e1).1
      norm_num at this x0
      rw [c, e3, min_eq_right (by norm_num), max_eq_left (by linarith), sub_self, zero_div]
    rw [b1, b2] at this
    norm_num at this ⊢
    linarith
  · have := C156_level (cut := 1 / 64) (top0 := 0) (top1 := 0) (levels := [⟨0, 0, 1, 0, []⟩]) (p := 1) (j := 0) h (excitation fl 8 n) (fun _ => 0)
      hp (by norm_num) (by norm_num) (i := 1) rfl
    norm_num at this ⊢
    linarith

end CGMF.Props

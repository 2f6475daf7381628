import Verif.Props.FloatStep

/-!
# C157: competition and spectrum of a pass, over all random bits

C126 and C156 are about one state.  Here the errors of all states are added up: the boundary between two states moves by the roundings of all
additions before it, but it moves for both of them, so that each state gains or loses no more than a single rounding.
-/

namespace CGMF.Props

open CGMF CGMF.Fp CGMF.Twist CGMF.Pick

variable {fl : ℝ → ℝ}

/-- The chance of an entry is the distance of the running sums as computed. -/
theorem pick_width (h : Double fl) {l : List ℝ} (hl : ∀ p ∈ l, 0 ≤ p) {i : Nat} (hi : i < l.length) :
    |chance (fun w => pickSum fl 0 (rng fl w) l = some i) - (min 1 (runSum fl 0 l (i + 1)) - min 1 (runSum fl 0 l i))| ≤ 3 / 2 ^ 53 := by
  have m := runSum_le_succ h isFloat_zero hl hi
  have a0 : 0 ≤ runSum fl 0 l i := by
    have := runSum_mono h isFloat_zero hl (Nat.zero_le i) hi.le
    rwa [runSum_zero] at this
  set a := runSum fl 0 l i with ha
  set b := runSum fl 0 l (i + 1) with hb
  have key := chance_interval (E := fun w => pickSum fl 0 (rng fl w) l = some i) (a := min 1 a) (b := min 1 b) (ε := 1 / 2 ^ 53)
    (le_min zero_le_one a0) (min_le_min_left _ m) (min_le_left _ _) (by positivity) ?_ ?_
  · refine key.trans ?_
    norm_num
  · intro w hw
    have near := abs_le.1 (rng_near h w)
    have r1 := (rng_range h w).2.2
    rcases (rng_range h w).2.1.lt_or_eq with r0 | r0
    · obtain ⟨-, x, y⟩ := (pickSum_some h isFloat_zero r0 hl i).1 hw
      constructor
      · linarith [min_le_right 1 a, near.2]
      · linarith [le_min r1.le y, near.1]
    · rw [← r0] at hw near
      have i00 := rng_zero_first h hl hw
      subst i00
      have az : a = 0 := by rw [ha, runSum_zero]
      have m1 : min 1 a = 0 := by rw [az]; norm_num
      have m0 : 0 ≤ min 1 b := le_min zero_le_one (by linarith)
      have v0 : (0 : ℝ) ≤ (value w : ℝ) / 2 ^ 64 := by positivity
      have e0 : (0 : ℝ) ≤ 1 / 2 ^ 53 := by positivity
      constructor <;> linarith [near.1]
  · intro w w1 w2
    have near := abs_le.1 (rng_near h w)
    have v1 : (value w : ℝ) / 2 ^ 64 < 1 := by
      rw [div_lt_one (by positivity)]
      exact_mod_cast value_lt w
    have e0 : (0 : ℝ) ≤ 1 / 2 ^ 53 := by positivity
    have ha1 : a ≤ 1 := by
      by_contra hc
      rw [min_eq_left (not_le.1 hc).le] at w1
      linarith
    rw [min_eq_right ha1] at w1
    have := min_le_right 1 b
    exact (pickSum_some h isFloat_zero (by linarith [near.1]) hl i).2 ⟨hi, by linarith [near.1], by linarith [near.2]⟩

/-- A running sum is at most two. -/
theorem runSum_le_two (h : Double fl) {l : List ℝ} (hl : ∀ p ∈ l, 0 ≤ p) (hlen : l.length ≤ 2 ^ 40) (hsum : l.sum ≤ 5 / 4) {k : Nat} (hk : k ≤ l.length) :
    runSum fl 0 l k ≤ 3 / 2 := by
  have e := (abs_le.1 (runSum_error h hl hlen hsum k hk)).2
  have hk' : (k : ℝ) ≤ 2 ^ 40 := by exact_mod_cast hk.trans hlen
  have : (l.take k).sum ≤ l.sum := by
    have := List.sum_take_add_sum_drop l k
    have : 0 ≤ (l.drop k).sum := List.sum_nonneg fun p hp => hl p (List.mem_of_mem_drop hp)
    linarith
  norm_num at e hk'
  have hk' : (k : ℝ) ≤ 1099511627776 := by exact_mod_cast hk'
  linarith

/-- One addition. -/
theorem runSum_step (h : Double fl) {l : List ℝ} (hl : ∀ p ∈ l, 0 ≤ p) (hlen : l.length ≤ 2 ^ 40) (hsum : l.sum ≤ 5 / 4) {i : Nat} (hi : i < l.length) :
    |runSum fl 0 l (i + 1) - runSum fl 0 l i - l[i]| ≤ 1 / 2 ^ 51 := by
  have a0 : 0 ≤ runSum fl 0 l i := by
    have := runSum_mono h isFloat_zero hl (Nat.zero_le i) hi.le
    rwa [runSum_zero] at this
  have a2 := runSum_le_two h hl hlen hsum hi.le
  have p0 := hl _ (List.getElem_mem hi)
  have p1 : l[i] ≤ 5 / 4 := (List.single_le_sum hl _ (List.getElem_mem hi)).trans hsum
  rw [runSum_succ 0 l hi]
  have any := h.any (x := runSum fl 0 l i + l[i]) (by norm_num)
  have hη := eta_le (k := 0) (by norm_num)
  rw [zpow_zero, one_mul] at hη
  set η : ℝ := 2 ^ (-1074 : Int) / 2
  rw [abs_of_nonneg (by linarith : 0 ≤ runSum fl 0 l i + l[i])] at any
  rw [sub_sub]
  refine any.trans ?_
  norm_num at *
  linarith

/-- **C157**, total: the chances of all states together differ from the populations by no more than `N/2^49` for `N` states, and the excess of
their sum over one. -/
theorem C157_total (h : Double fl) {l : List ℝ} (hl : ∀ p ∈ l, 0 ≤ p) (hlen : l.length ≤ 2 ^ 40) (hsum : l.sum ≤ 5 / 4) :
    ∑ i : Fin l.length, |chance (fun w => pickSum fl 0 (rng fl w) l = some (i : Nat)) - l[i]| ≤ l.length / 2 ^ 49 + max 0 (l.sum - 1) := by
  have each : ∀ i : Fin l.length, |chance (fun w => pickSum fl 0 (rng fl w) l = some (i : Nat)) - l[i]| ≤
      7 / 2 ^ 53 + ((runSum fl 0 l (i + 1) - min 1 (runSum fl 0 l (i + 1))) - (runSum fl 0 l i - min 1 (runSum fl 0 l i))) := by
    intro i
    have w := pick_width h hl i.2
    have s := runSum_step h hl hlen hsum i.2
    have m := runSum_le_succ h isFloat_zero hl i.2
    have c : 0 ≤ (runSum fl 0 l (i + 1) - min 1 (runSum fl 0 l (i + 1))) - (runSum fl 0 l i - min 1 (runSum fl 0 l i)) := by
      rcases le_total 1 (runSum fl 0 l (i + 1)) with h1 | h1 <;> rcases le_total 1 (runSum fl 0 l i) with h2 | h2 <;>
        simp only [min_eq_left, min_eq_right, h1, h2] <;> linarith
    have w := abs_le.1 w
    have s := abs_le.1 s
    rw [Fin.getElem_fin, abs_le]
    have n1 : (3 : ℝ) / 2 ^ 53 = 3 * (1 / 2 ^ 53) := by norm_num
    have n2 : (1 : ℝ) / 2 ^ 51 = 4 * (1 / 2 ^ 53) := by norm_num
    have n3 : (7 : ℝ) / 2 ^ 53 = 7 * (1 / 2 ^ 53) := by norm_num
    rw [n1] at w
    rw [n2] at s
    rw [n3]
    generalize (1 : ℝ) / 2 ^ 53 = ε at *
    constructor <;> linarith [w.1, w.2, s.1, s.2]
  refine (Finset.sum_le_sum fun i _ => each i).trans ?_
  rw [Finset.sum_add_distrib, Finset.sum_const, Finset.card_univ, Fintype.card_fin, nsmul_eq_mul,
    Fin.sum_univ_eq_sum_range (fun i => (runSum fl 0 l (i + 1) - min 1 (runSum fl 0 l (i + 1))) - (runSum fl 0 l i - min 1 (runSum fl 0 l i))) l.length,
    Finset.sum_range_sub (fun i => runSum fl 0 l i - min 1 (runSum fl 0 l i)), runSum_zero]
  have e := (abs_le.1 (runSum_error h hl hlen hsum l.length le_rfl)).2
  rw [List.take_length] at e
  have n0 : (0 : ℝ) ≤ l.length := Nat.cast_nonneg _
  have m1 := le_max_left 0 (l.sum - 1)
  have m2 := le_max_right 0 (l.sum - 1)
  have z : min (1 : ℝ) 0 = 0 := by norm_num
  rw [z]
  have n1 : (l.length : ℝ) / 2 ^ 49 = l.length * (1 / 2 ^ 53) * 16 := by ring
  have n2 : (l.length : ℝ) / 2 ^ 51 = l.length * (1 / 2 ^ 53) * 4 := by ring
  have n3 : (l.length : ℝ) * (7 / 2 ^ 53) = l.length * (1 / 2 ^ 53) * 7 := by ring
  have n4 : 0 ≤ (l.length : ℝ) * (1 / 2 ^ 53) := by positivity
  rw [n2] at e
  rw [n1, n3]
  generalize (l.length : ℝ) * (1 / 2 ^ 53) = ε at *
  rcases le_total 1 (runSum fl 0 l l.length) with h1 | h1
  · rw [min_eq_left h1]
    linarith
  · rw [min_eq_right h1]
    linarith

/-- **C157**, competition: a state of the set `A`, for example one after a neutron, is chosen with the sum of their populations. -/
theorem C157_competition (h : Double fl) {l : List ℝ} (hl : ∀ p ∈ l, 0 ≤ p) (hlen : l.length ≤ 2 ^ 40) (hsum : l.sum ≤ 5 / 4) (A : Finset (Fin l.length)) :
    |chance (fun w => ∃ i ∈ A, pickSum fl 0 (rng fl w) l = some (i : Nat)) - ∑ i ∈ A, l[i]| ≤ l.length / 2 ^ 49 + max 0 (l.sum - 1) := by
  have e : chance (fun w => ∃ i ∈ A, pickSum fl 0 (rng fl w) l = some (i : Nat)) = ∑ i ∈ A, chance fun w => pickSum fl 0 (rng fl w) l = some (i : Nat) := by
    have := chance_sum (A.map Fin.valEmbedding) fun w => pickSum fl 0 (rng fl w) l
    rw [Finset.sum_map] at this
    refine Eq.trans (chance_congr fun w => ?_) this
    simp
  rw [e, ← Finset.sum_sub_distrib]
  refine (Finset.abs_sum_le_sum_abs _ _).trans ((Finset.sum_le_sum_of_subset_of_nonneg (Finset.subset_univ A) fun _ _ _ => abs_nonneg _).trans ?_)
  exact C157_total h hl hlen hsum

/-- Specification: the part of state `t` with energies at most `x`; `lo`, `hi` are the ends of the bins of the decaying nucleus and `lo'`, `hi'`
of that after a neutron; the energies of the decaying nucleus below `c` do not count, they are forced to levels. -/
noncomputable def partUpTo (lo hi lo' hi' : Nat → ℝ) (c x : ℝ) : Target → ℝ
  | .bin true k => if c ≤ x then below (lo k) (hi k) x - below (lo k) (hi k) c else 0
  | .bin false k => below (lo' k) (hi' k) x
  | .level e => if e ≤ x then 1 else 0

variable {cut top0 top1 E0 E1 : ℝ} {n0 n1 : Nat} {levels : List (Level ℝ)} {p j : Int} {ts : List (Target × ℝ)}

/-- One state: the choice and the energy. -/
theorem state_near (h : Double fl) (hn0 : Fp.total fl E0 = some n0) (hn1 : Fp.total fl E1 = some n1) {i : Nat} {t : Target} {q : ℝ} (x : ℝ)
    (hi : ts[i]? = some (t, q)) (h0 : ∀ k, t = .bin true k → k < contBins fl E0 n0 top0) (h1 : ∀ k, t = .bin false k → k < contBins fl E1 n1 top1) :
    ∃ g : ℝ, chance (fun u : Fin 2 → Pair => ∃ e ≤ x, ∃ r, pass fl cut (excitation fl E0 n0) (excitation fl E1 n1) top0 top1 levels p j ts
        (List.ofFn fun k => rng fl (u k)) = .ok (.state i e, r)) = chance (fun w => pickSum fl 0 (rng fl w) (ts.map (·.2)) = some i) * g ∧
      |g - partUpTo (lowerEnd fl (excitation fl E0 n0) top0) (upperEnd fl (excitation fl E0 n0)) (lowerEnd fl (excitation fl E1 n1) top1)
        (upperEnd fl (excitation fl E1 n1)) (fl (top0 + cut)) x t| ≤ 1 / 2 ^ 36 := by
  have go : ∀ F : List ℝ → Prop, (∀ l, (∃ e ≤ x, ∃ r, (match (some (t, q) : Option (Target × ℝ)) with
        | some (.level e, _) => pure (.state i e)
        | some (.bin true k, _) => do
          let r' ← Rnd.draw
          if within fl (excitation fl E0 n0) top0 k r' < fl (top0 + cut) then do
            let q ← HF.forced levels p j
            pure (.forced (some i) q)
          else pure (.state i (within fl (excitation fl E0 n0) top0 k r'))
        | some (.bin false k, _) => do
          let r' ← Rnd.draw
          pure (.state i (within fl (excitation fl E1 n1) top1 k r'))
        | none => fun _ => .ub : Rnd ℝ Reached) l = .ok (.state i e, r)) ↔ F l) →
      chance (fun u : Fin 2 → Pair => ∃ e ≤ x, ∃ r, pass fl cut (excitation fl E0 n0) (excitation fl E1 n1) top0 top1 levels p j ts
        (List.ofFn fun k => rng fl (u k)) = .ok (.state i e, r)) = chance (fun w => pickSum fl 0 (rng fl w) (ts.map (·.2)) = some i) *
        chance fun u : Fin 1 → Pair => F (List.ofFn fun k => rng fl (u k)) := by
    intro F hF
    refine chance_first 1 _ F (P := fun s => ∃ e ≤ x, ∃ r, pass fl cut (excitation fl E0 n0) (excitation fl E1 n1) top0 top1 levels p j ts s =
      .ok (.state i e, r)) fun w l => ?_
    rw [← hF]
    constructor
    · rintro ⟨e, he, r, hok⟩
      have hc := pass_other _ _ (.inl ⟨e, rfl⟩) hok
      rw [pass_cons, hc] at hok
      simp only [hi] at hok
      exact ⟨hc, e, he, r, hok⟩
    · rintro ⟨hc, e, he, r, hok⟩
      refine ⟨e, he, r, ?_⟩
      rw [pass_cons, hc]
      simp only [hi]
      exact hok
  have one : ∀ E : ℝ → Prop, chance (fun u : Fin 1 → Pair => ∃ r l, (List.ofFn fun k => rng fl (u k)) = r :: l ∧ E r) = chance fun w => E (rng fl w) := by
    intro E
    have side : ∀ (w : Pair) (l : List ℝ), (∃ r l', rng fl w :: l = r :: l' ∧ E r) ↔ E (rng fl w) ∧ True := by
      intro w l
      constructor
      · rintro ⟨r, l', h1, h2⟩
        obtain ⟨rfl, rfl⟩ := List.cons_eq_cons.1 h1
        exact ⟨h2, trivial⟩
      · rintro ⟨h2, -⟩
        exact ⟨_, _, rfl, h2⟩
    have c := chance_first (fl := fl) 0 (fun w => E (rng fl w)) (fun _ => True) (P := fun l => ∃ r l', l = r :: l' ∧ E r) side
    have c1 := chance_none (fl := fl) (fun _ => True) trivial
    rw [c1, mul_one] at c
    exact c
  rcases t with ⟨_ | _, k⟩ | e
  · refine ⟨_, go (fun l => ∃ r l', l = r :: l' ∧ within fl (excitation fl E1 n1) top1 k r ≤ x) fun l => ?_, ?_⟩
    · constructor
      · rintro ⟨e, he, r, hok⟩
        cases l with
        | nil => cases hok
        | cons r' l => cases hok; exact ⟨_, _, rfl, he⟩
      · rintro ⟨r', l', rfl, hx⟩
        exact ⟨_, hx, l', rfl⟩
    · rw [one fun r => within fl (excitation fl E1 n1) top1 k r ≤ x]
      exact below_le h x hn1 (h1 k rfl)
  · refine ⟨_, go (fun l => ∃ r l', l = r :: l' ∧ (¬ within fl (excitation fl E0 n0) top0 k r < fl (top0 + cut) ∧
      within fl (excitation fl E0 n0) top0 k r ≤ x)) fun l => ?_, ?_⟩
    · constructor
      · rintro ⟨e, he, r, hok⟩
        cases l with
        | nil => cases hok
        | cons r' l =>
          change (if within fl (excitation fl E0 n0) top0 k r' < fl (top0 + cut) then _ else _ : Rnd ℝ Reached) l = _ at hok
          split_ifs at hok with c
          · obtain ⟨q, -, h2⟩ := (forced_result (Reached.forced (some i)) _ _ _).1 hok
            cases h2
          · cases hok
            exact ⟨_, _, rfl, c, he⟩
      · rintro ⟨r', l', rfl, c, hx⟩
        refine ⟨_, hx, l', ?_⟩
        show (if within fl (excitation fl E0 n0) top0 k r' < fl (top0 + cut) then _ else _ : Rnd ℝ Reached) l' = _
        rw [if_neg c]
        rfl
    · rw [one fun r => ¬ within fl (excitation fl E0 n0) top0 k r < fl (top0 + cut) ∧ within fl (excitation fl E0 n0) top0 k r ≤ x]
      show |_ - (if fl (top0 + cut) ≤ x then _ else (0 : ℝ))| ≤ _
      split_ifs with c
      · exact below_between h c hn0 (h0 k rfl)
      · rw [chance_congr (F := fun _ => False), chance_false, sub_zero, abs_zero]
        · positivity
        · intro w
          simp only [iff_false, not_and]
          intro a b
          exact c ((not_lt.1 a).trans b)
  · refine ⟨_, go (fun _ => e ≤ x) fun l => ?_, ?_⟩
    · constructor
      · rintro ⟨e', he, r, hok⟩
        cases hok
        exact he
      · intro he
        exact ⟨e, he, l, rfl⟩
    · show |_ - (if e ≤ x then (1 : ℝ) else 0)| ≤ _
      split_ifs with c
      · rw [chance_congr (F := fun _ => True) (fun u => by simp [c]), chance_true, sub_self, abs_zero]
        positivity
      · rw [chance_congr (F := fun _ => False) (fun u => by simp [c]), chance_false, sub_self, abs_zero]
        positivity

theorem partUpTo_range {lo hi lo' hi' : Nat → ℝ} {c x : ℝ} {t : Target} (h0 : ∀ k, t = .bin true k → lo k < hi k) (h1 : ∀ k, t = .bin false k → lo' k < hi' k) :
    0 ≤ partUpTo lo hi lo' hi' c x t ∧ partUpTo lo hi lo' hi' c x t ≤ 1 := by
  rcases t with ⟨_ | _, k⟩ | e
  · exact below_range x (h1 k rfl)
  · have w := h0 k rfl
    show 0 ≤ (if c ≤ x then below (lo k) (hi k) x - below (lo k) (hi k) c else 0) ∧ (if c ≤ x then below (lo k) (hi k) x - below (lo k) (hi k) c else 0) ≤ 1
    split_ifs with hc
    · have a := below_range x w
      have b := below_range c w
      refine ⟨?_, by linarith⟩
      unfold below
      rw [← sub_div, sub_sub_sub_cancel_right]
      exact div_nonneg (sub_nonneg.2 (max_le_max le_rfl (min_le_min le_rfl hc))) (by linarith)
    · norm_num
  · show 0 ≤ (if e ≤ x then (1 : ℝ) else 0) ∧ (if e ≤ x then (1 : ℝ) else 0) ≤ 1
    split_ifs <;> norm_num

/-- **C157**, spectrum: a pass ends in a state of the set `A` with an energy of at most `x` with the probability obtained by adding, over the
states, population times part of the bin.  The error does not grow with the number of bins except by `N/2^49`. -/
theorem C157_spectrum (h : Double fl) (hp : ∀ t ∈ ts, 0 ≤ t.2) (hlen : ts.length ≤ 2 ^ 40) (hsum : (ts.map (·.2)).sum ≤ 5 / 4)
    (hn0 : Fp.total fl E0 = some n0) (hn1 : Fp.total fl E1 = some n1) (x : ℝ) (A : Finset (Fin ts.length))
    (h0 : ∀ i ∈ A, ∀ k, ts[i].1 = .bin true k → k < contBins fl E0 n0 top0) (h1 : ∀ i ∈ A, ∀ k, ts[i].1 = .bin false k → k < contBins fl E1 n1 top1) :
    |chance (fun u : Fin 2 → Pair => ∃ i ∈ A, ∃ e ≤ x, ∃ r, pass fl cut (excitation fl E0 n0) (excitation fl E1 n1) top0 top1 levels p j ts
        (List.ofFn fun k => rng fl (u k)) = .ok (.state i e, r)) -
      ∑ i ∈ A, ts[i].2 * partUpTo (lowerEnd fl (excitation fl E0 n0) top0) (upperEnd fl (excitation fl E0 n0))
        (lowerEnd fl (excitation fl E1 n1) top1) (upperEnd fl (excitation fl E1 n1)) (fl (top0 + cut)) x ts[i].1|
      ≤ 1 / 2 ^ 36 + (ts.length / 2 ^ 49 + max 0 ((ts.map (·.2)).sum - 1)) := by
  classical
  set part := partUpTo (lowerEnd fl (excitation fl E0 n0) top0) (upperEnd fl (excitation fl E0 n0)) (lowerEnd fl (excitation fl E1 n1) top1)
    (upperEnd fl (excitation fl E1 n1)) (fl (top0 + cut)) x with hpart
  set c : Fin ts.length → ℝ := fun i => chance (fun w => pickSum fl 0 (rng fl w) (ts.map (·.2)) = some (i : Nat)) with hc
  have near : ∀ i : Fin ts.length, ∃ g : ℝ, i ∈ A → chance (fun u : Fin 2 → Pair => ∃ e ≤ x, ∃ r, pass fl cut (excitation fl E0 n0)
      (excitation fl E1 n1) top0 top1 levels p j ts (List.ofFn fun k => rng fl (u k)) = .ok (.state i e, r)) = c i * g ∧ |g - part ts[i].1| ≤ 1 / 2 ^ 36 := by
    intro i
    by_cases hi : i ∈ A
    · obtain ⟨g, e1, e2⟩ := state_near (cut := cut) (levels := levels) (p := p) (j := j) h hn0 hn1 (i := (i : Nat)) (t := ts[i].1) (q := ts[i].2) x
        (List.getElem?_eq_getElem i.2) (h0 i hi) (h1 i hi)
      exact ⟨g, fun _ => ⟨e1, e2⟩⟩
    · exact ⟨0, fun h => absurd h hi⟩
  choose g hg using near
  have sum : chance (fun u : Fin 2 → Pair => ∃ i ∈ A, ∃ e ≤ x, ∃ r, pass fl cut (excitation fl E0 n0) (excitation fl E1 n1) top0 top1 levels p j ts
        (List.ofFn fun k => rng fl (u k)) = .ok (.state i e, r)) = ∑ i ∈ A, c i * g i := by
    let f : (Fin 2 → Pair) → Option Nat := fun u => match pass fl cut (excitation fl E0 n0) (excitation fl E1 n1) top0 top1 levels p j ts
        (List.ofFn fun k => rng fl (u k)) with
      | .ok (.state i e, _) => if e ≤ x then some i else none
      | _ => none
    have hf : ∀ u (i : Nat), f u = some i ↔ ∃ e ≤ x, ∃ r, pass fl cut (excitation fl E0 n0) (excitation fl E1 n1) top0 top1 levels p j ts
        (List.ofFn fun k => rng fl (u k)) = .ok (.state i e, r) := by
      intro u i
      show (match pass fl cut (excitation fl E0 n0) (excitation fl E1 n1) top0 top1 levels p j ts (List.ofFn fun k => rng fl (u k)) with
        | .ok (.state i e, _) => if e ≤ x then some i else none
        | _ => none) = some i ↔ _
      rcases pass fl cut (excitation fl E0 n0) (excitation fl E1 n1) top0 top1 levels p j ts (List.ofFn fun k => rng fl (u k)) with
        ⟨⟨i', e⟩ | ⟨o, m⟩, r⟩ | _ | _ | _
      · simp only
        constructor
        · intro hh
          split_ifs at hh with hx
          cases hh
          exact ⟨e, hx, r, rfl⟩
        · rintro ⟨e', hx, r', hh⟩
          cases hh
          rw [if_pos hx]
      all_goals simp
    have := chance_sum (A.map Fin.valEmbedding) f
    rw [Finset.sum_map] at this
    refine Eq.trans (chance_congr fun u => ?_) (this.trans (Finset.sum_congr rfl fun i hi => ?_))
    · simp [hf]
    · rw [← (hg i hi).1]
      exact chance_congr fun u => hf u i
  have c0 : ∀ i, 0 ≤ c i := fun i => chance_nonneg _
  have c1 : ∑ i ∈ A, c i ≤ 1 := by
    have := chance_sum (A.map Fin.valEmbedding) fun w => pickSum fl 0 (rng fl w) (ts.map (·.2))
    rw [Finset.sum_map] at this
    exact this.symm.le.trans (chance_le_one _)
  have tot := C157_total h (l := ts.map (·.2)) (fun x hx => by obtain ⟨t, ht, rfl⟩ := List.mem_map.1 hx; exact hp t ht) (by simpa using hlen) hsum
  have tot' : ∑ i ∈ A, |c i - ts[i].2| ≤ ts.length / 2 ^ 49 + max 0 ((ts.map (·.2)).sum - 1) := by
    have e : ∑ i : Fin (ts.map (·.2)).length, |chance (fun w => pickSum fl 0 (rng fl w) (ts.map (·.2)) = some (i : Nat)) - (ts.map (·.2))[i]|
        = ∑ i : Fin ts.length, |c i - ts[i].2| := by
      refine Fintype.sum_equiv (finCongr (List.length_map _)) _ _ fun i => ?_
      simp [hc]
    rw [e, List.length_map] at tot
    exact (Finset.sum_le_sum_of_subset_of_nonneg (Finset.subset_univ A) fun _ _ _ => abs_nonneg _).trans tot
  have pr : ∀ i ∈ A, 0 ≤ part ts[i].1 ∧ part ts[i].1 ≤ 1 := by
    intro i hi
    refine partUpTo_range (fun k hk => ?_) (fun k hk => ?_)
    · obtain ⟨-, -, -, -, wd⟩ := bin_ends h hn0 (h0 i hi k hk)
      norm_num at wd
      linarith
    · obtain ⟨-, -, -, -, wd⟩ := bin_ends h hn1 (h1 i hi k hk)
      norm_num at wd
      linarith
  rw [sum, ← Finset.sum_sub_distrib]
  have each : ∀ i ∈ A, |c i * g i - ts[i].2 * part ts[i].1| ≤ c i * (1 / 2 ^ 36) + |c i - ts[i].2| := by
    intro i hi
    have r : c i * g i - ts[i].2 * part ts[i].1 = c i * (g i - part ts[i].1) + (c i - ts[i].2) * part ts[i].1 := by ring
    rw [r]
    refine (abs_add_le _ _).trans ?_
    rw [abs_mul, abs_mul, abs_of_nonneg (c0 i), abs_of_nonneg (pr i hi).1]
    exact add_le_add (mul_le_mul_of_nonneg_left (hg i hi).2 (c0 i)) (mul_le_of_le_one_right (abs_nonneg _) (pr i hi).2)
  refine (Finset.abs_sum_le_sum_abs _ _).trans ((Finset.sum_le_sum each).trans ?_)
  rw [Finset.sum_add_distrib, ← Finset.sum_mul]
  refine add_le_add ?_ tot'
  have := mul_le_mul_of_nonneg_right c1 (by positivity : (0 : ℝ) ≤ 1 / 2 ^ 36)
  linarith

/-- A nucleus with 8 MeV: half of the population in a state of its first bin, a quarter in the first bin of the nucleus after a neutron, with
2 MeV, and a quarter in the ground state of that nucleus.  A neutron is emitted in half of the passes and leaves at most 2 MeV. -/
example (h : Double fl) : ∃ n0 n1, Fp.total fl 8 = some n0 ∧ Fp.total fl 2 = some n1 ∧
    |chance (fun w => ∃ i ∈ ({1, 2} : Finset (Fin 3)), pickSum fl 0 (rng fl w) [1 / 2, 1 / 4, 1 / 4] = some (i : Nat)) - 1 / 2| ≤ 1 / 2 ^ 47 ∧
    |chance (fun u : Fin 2 → Pair => ∃ i ∈ ({1, 2} : Finset (Fin 3)), ∃ e ≤ 2, ∃ r, pass fl (1 / 64) (excitation fl 8 n0) (excitation fl 2 n1) 0 0
      [⟨0, 0, 1, 0, []⟩] 1 0 [(.bin true 0, 1 / 2), (.bin false 0, 1 / 4), (.level 0, 1 / 4)] (List.ofFn fun k => rng fl (u k)) = .ok (.state i e, r)) - 1 / 2|
      ≤ 1 / 2 ^ 35 := by
  obtain ⟨n0, hn0⟩ := (C131_mesh h 8).1 (by norm_num)
  obtain ⟨n1, hn1⟩ := (C131_mesh h 2).1 (by norm_num)
  have n2 := Fp.total_ge (by norm_num) h hn1
  have hk : 0 < contBins fl 2 n1 0 := by
    simp only [contBins, if_true]
    omega
  have d2 : IsDouble (2 : ℝ) := by simpa using isFloat_int (p := 53) (emin := -1074) (n := 2) (by norm_num) (by omega) (by omega)
  have top := C131_top h d2 (by norm_num) hn1
  have hp : ∀ t ∈ [((.bin true 0 : Target), (1 / 2 : ℝ)), (.bin false 0, 1 / 4), (.level 0, 1 / 4)], 0 ≤ t.2 := by
    intro t ht
    simp only [List.mem_cons, List.not_mem_nil, or_false] at ht
    rcases ht with rfl | rfl | rfl <;> norm_num
  refine ⟨n0, n1, hn0, hn1, ?_, ?_⟩
  · have := C157_competition h (l := [1 / 2, 1 / 4, 1 / 4]) (by intro p hp; simp at hp; rcases hp with rfl | rfl <;> norm_num) (by norm_num)
      (by norm_num) ({1, 2} : Finset (Fin 3))
    rw [Finset.sum_pair (by decide)] at this
    norm_num at this ⊢
    linarith
  · have := C157_spectrum (cut := 1 / 64) (top0 := 0) (top1 := 0) (levels := [⟨0, 0, 1, 0, []⟩]) (p := 1) (j := 0) h hp (by norm_num) (by norm_num)
      hn0 hn1 2 ({1, 2} : Finset (Fin 3))
      (by
        intro i hi k e
        simp only [Finset.mem_insert, Finset.mem_singleton] at hi
        rcases hi with rfl | rfl <;> cases e)
      (by
        intro i hi k e
        simp only [Finset.mem_insert, Finset.mem_singleton] at hi
        rcases hi with rfl | rfl <;> cases e
        exact hk)
    rw [Finset.sum_pair (by decide)] at this
    obtain ⟨-, -, -, -, wd⟩ := bin_ends h hn1 hk
    obtain ⟨-, -, e3, -⟩ := C155_ends h hn1 hk
    have e3 := e3 rfl
    rw [top] at e3
    have b1 : below (lowerEnd fl (excitation fl 2 n1) 0 0) (upperEnd fl (excitation fl 2 n1) 0) 2 = 1 := by
      unfold below
      norm_num at wd
      rw [e3] at wd ⊢
      rw [min_self, max_eq_right (by linarith), div_self (by linarith)]
    have q1 : partUpTo (lowerEnd fl (excitation fl 8 n0) 0) (upperEnd fl (excitation fl 8 n0)) (lowerEnd fl (excitation fl 2 n1) 0)
        (upperEnd fl (excitation fl 2 n1)) (fl (0 + 1 / 64)) 2 (.bin false 0) = 1 := b1
    have q2 : partUpTo (lowerEnd fl (excitation fl 8 n0) 0) (upperEnd fl (excitation fl 8 n0)) (lowerEnd fl (excitation fl 2 n1) 0)
        (upperEnd fl (excitation fl 2 n1)) (fl (0 + 1 / 64)) 2 (.level 0) = 1 := if_pos (by norm_num)
    simp only [Fin.getElem_fin, Fin.val_one, Fin.val_two, List.getElem_cons_succ, List.getElem_cons_zero, q1, q2] at this
    refine le_trans (le_of_eq ?_) (this.trans ?_)
    · congr 2
      norm_num
    · norm_num

end CGMF.Props

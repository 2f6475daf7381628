import Mathlib.Data.Finset.Max
import Mathlib.SetTheory.Cardinal.Finite
import Mathlib.Logic.Equiv.Prod
import Verif.Props.FloatIsotropy
import Verif.Proofs.PassLaw
import Verif.Proofs.Safe

/-!
# C154: forced transitions reach each allowed level equally often, over all random bits

Each allowed level takes one number of the generator and the largest number wins. The numbers of the generator can be equal,
and then the first of the equal ones wins, so that the law is not exactly uniform.
-/

namespace CGMF.Props

open CGMF CGMF.Fp CGMF.Twist CGMF.Pick
open CGMF.HF (forced forcedTo bypass pickE1 closestLast e1Candidate pick_run pick_none preferred_iff rank_lt rank_exists rank_inj closest closest_iff FirstClosest)
open CGMF.Law (pre)

variable {fl : ℝ → ℝ}

/-! ## Counting -/

theorem chance_within {α : Type} [Finite α] {E F : α → Prop} (h : ∀ a, E a → F a) : chance E ≤ chance F := by
  unfold chance
  refine div_le_div_of_nonneg_right ?_ (by positivity)
  exact_mod_cast Set.ncard_le_ncard (s := {a | E a}) (t := {a | F a}) h (Set.toFinite _)

theorem chance_either {α : Type} [Finite α] (E F : α → Prop) : chance (fun a => E a ∨ F a) ≤ chance E + chance F := by
  have h := chance_or (E := E) (F := fun a => F a ∧ ¬ E a) fun a h h' => h'.2 h
  have h1 : chance (fun a => E a ∨ F a) = chance fun a => E a ∨ F a ∧ ¬ E a := chance_congr fun a => by tauto
  rw [h1, h]
  exact add_le_add le_rfl (chance_within fun a h => h.1)

theorem chance_some {α ι : Type} [Finite α] [DecidableEq ι] (s : Finset ι) (E : ι → α → Prop) {c : ℝ} (h : ∀ i ∈ s, chance (E i) ≤ c) :
    chance (fun a => ∃ i ∈ s, E i a) ≤ s.card * c := by
  induction s using Finset.induction_on with
  | empty => simp [chance]
  | insert i s hi ih =>
    have e : chance (fun a => ∃ k ∈ insert i s, E k a) = chance fun a => E i a ∨ ∃ k ∈ s, E k a :=
      chance_congr fun a => by simp
    have := chance_either (E i) fun a => ∃ k ∈ s, E k a
    have h1 := h i (by simp)
    have h2 := ih fun k hk => h k (by simp [hk])
    rw [e, Finset.card_insert_of_notMem hi, Nat.cast_add, Nat.cast_one]
    linarith

/-- An event whose chance is at most `c` whatever the second part is. -/
theorem chance_fibre {α β : Type} [Finite α] [Nonempty α] [Finite β] {E : α → β → Prop} {c : ℝ} (hc : 0 ≤ c) (h : ∀ b, chance (fun a => E a b) ≤ c) :
    chance (fun w : α × β => E w.1 w.2) ≤ c := by
  classical
  have := Fintype.ofFinite β
  unfold chance at h ⊢
  have e : {w : α × β | E w.1 w.2} ≃ Σ b : β, {a | E a b} :=
    { toFun := fun w => ⟨w.1.2, w.1.1, w.2⟩
      invFun := fun s => ⟨(s.2.1, s.1), s.2.2⟩
      left_inv := fun _ => rfl
      right_inv := fun _ => rfl }
  have n : {w : α × β | E w.1 w.2}.ncard = ∑ b, {a | E a b}.ncard := by
    rw [← Nat.card_coe_set_eq, Nat.card_congr e, Nat.card_sigma]
    exact Finset.sum_congr rfl fun b _ => Nat.card_coe_set_eq _
  have ha : (0 : ℝ) < Nat.card α := by exact_mod_cast Nat.card_pos
  rw [n, Nat.card_prod, Nat.cast_sum, Nat.cast_mul]
  refine div_le_of_le_mul₀ (by positivity) hc ?_
  calc ∑ b, ({a | E a b}.ncard : ℝ) ≤ ∑ _b : β, c * Nat.card α := Finset.sum_le_sum fun b _ => (div_le_iff₀ ha).1 (h b)
    _ = c * (Nat.card α * Nat.card β) := by
      rw [Finset.sum_const, Finset.card_univ, nsmul_eq_mul, Nat.card_eq_fintype_card (α := β)]; ring

/-! ## The largest of several numbers -/

/-- One value of the generator has a chance of at most `3/2^53`. -/
theorem atom (hd : Double fl) {x : ℝ} (h0 : 0 ≤ x) (h1 : x ≤ 1) : chance (fun w : Pair => rng fl w = x) ≤ 3 / 2 ^ 53 := by
  have := chance_interval (E := fun w => rng fl w = x) (a := x) (b := x) (ε := 1 / 2 ^ 53) h0 le_rfl h1 (by positivity)
    (fun w hw => by
      have := abs_le.1 (rng_near hd w)
      rw [hw] at this
      constructor <;> linarith [this.1, this.2])
    (fun w h2 h3 => by
      have : (0 : ℝ) < 1 / 2 ^ 53 := by positivity
      linarith)
  have := (abs_le.1 this).2
  norm_num at this ⊢
  linarith

/-- Number `k` is larger than all others. -/
def Top (fl : ℝ → ℝ) {n : Nat} (k : Fin n) (u : Fin n → Pair) : Prop := ∀ l, l ≠ k → rng fl (u l) < rng fl (u k)

theorem top_inj {n : Nat} {k l : Fin n} {u : Fin n → Pair} (h1 : Top fl k u) (h2 : Top fl l u) : k = l := by
  by_contra h
  have a := h1 l (Ne.symm h)
  have b := h2 k h
  linarith

theorem top_same {n : Nat} (k l : Fin n) : chance (Top fl k) = chance (Top fl l) := by
  rw [← chance_equiv ((Equiv.swap k l).arrowCongr (Equiv.refl Pair)) (Top fl l)]
  refine chance_congr fun u => ?_
  unfold Top
  simp only [Equiv.arrowCongr_apply, Equiv.symm_swap, Equiv.coe_refl, Function.comp, id]
  rw [Equiv.swap_apply_right]
  constructor
  · intro h m hm
    exact h _ fun e => hm (by have := congrArg (Equiv.swap k l) e; rwa [Equiv.swap_apply_self, Equiv.swap_apply_left] at this)
  · intro h m hm
    have := h (Equiv.swap k l m) fun e => hm (by have := congrArg (Equiv.swap k l) e; rwa [Equiv.swap_apply_self, Equiv.swap_apply_right] at this)
    rwa [Equiv.swap_apply_self] at this

theorem equal_draws (hd : Double fl) {n : Nat} {k l : Fin n} (hkl : l ≠ k) :
    chance (fun u : Fin n → Pair => rng fl (u k) = rng fl (u l)) ≤ 3 / 2 ^ 53 := by
  have e := chance_equiv (Equiv.funSplitAt k Pair) fun w : Pair × ({j // j ≠ k} → Pair) => rng fl w.1 = rng fl (w.2 ⟨l, hkl⟩)
  have e' : chance (fun u : Fin n → Pair => rng fl (u k) = rng fl (u l)) = chance fun a : Fin n → Pair =>
      rng fl ((Equiv.funSplitAt k Pair) a).1 = rng fl (((Equiv.funSplitAt k Pair) a).2 ⟨l, hkl⟩) := chance_congr fun u => by simp
  rw [e', e]
  refine chance_fibre (E := fun a (b : {j // j ≠ k} → Pair) => rng fl a = rng fl (b ⟨l, hkl⟩)) (by positivity) fun b => ?_
  obtain ⟨_, h0, h1⟩ := rng_range hd (b ⟨l, hkl⟩)
  exact atom hd h0 h1.le

theorem top_exists {n : Nat} (hn : 0 < n) {u : Fin n → Pair} (h : ∀ k l, l ≠ k → rng fl (u k) ≠ rng fl (u l)) : ∃ k, Top fl k u := by
  obtain ⟨k, _, hk⟩ := Finset.exists_max_image (Finset.univ : Finset (Fin n)) (fun k => rng fl (u k)) ⟨⟨0, hn⟩, Finset.mem_univ _⟩
  exact ⟨k, fun l hl => lt_of_le_of_ne (hk l (Finset.mem_univ _)) fun e => h k l hl e.symm⟩

/-- Some number is larger than all others, up to the chance that two are equal. -/
theorem top_some (hd : Double fl) {n : Nat} (hn : 0 < n) :
    1 - (n : ℝ) * (n - 1) * (3 / 2 ^ 53) ≤ chance fun u : Fin n → Pair => ∃ k, Top fl k u := by
  set s : Finset (Fin n × Fin n) := (Finset.univ : Finset (Fin n)).offDiag with hs
  have h := chance_some s (fun x (u : Fin n → Pair) => rng fl (u x.1) = rng fl (u x.2)) (c := 3 / 2 ^ 53) fun x hx => by
    rw [hs, Finset.mem_offDiag] at hx
    exact equal_draws hd (Ne.symm hx.2.2)
  have hc : (s.card : ℝ) = n * (n - 1) := by
    rw [hs, Finset.offDiag_card, Finset.card_univ, Fintype.card_fin, Nat.cast_sub (Nat.le_mul_self n)]
    push_cast; ring
  rw [hc] at h
  have h1 := chance_either (fun u : Fin n → Pair => ∃ k, Top fl k u) fun u => ∃ x ∈ s, rng fl (u x.1) = rng fl (u x.2)
  have h2 : chance (fun u : Fin n → Pair => (∃ k, Top fl k u) ∨ ∃ x ∈ s, rng fl (u x.1) = rng fl (u x.2)) = 1 := by
    rw [← chance_true (α := Fin n → Pair)]
    refine chance_congr fun u => iff_of_true ?_ trivial
    by_contra hno
    rw [not_or] at hno
    refine hno.1 (top_exists hn fun k l hkl e => hno.2 ⟨(k, l), ?_, e⟩)
    rw [hs, Finset.mem_offDiag]
    exact ⟨Finset.mem_univ _, Finset.mem_univ _, Ne.symm hkl⟩
  linarith

open Classical in
theorem top_sum {n : Nat} (s : Finset (Fin n)) :
    chance (fun u : Fin n → Pair => ∃ k ∈ s, Top fl k u) = ∑ k ∈ s, chance (Top fl k) := by
  have h := chance_sum s fun u : Fin n → Pair => if h : ∃ k, Top fl k u then some h.choose else none
  have key : ∀ (k : Fin n) (u : Fin n → Pair), (if h : ∃ k, Top fl k u then some h.choose else none) = some k ↔ Top fl k u := by
    intro k u
    constructor
    · intro e
      by_cases hx : ∃ k, Top fl k u
      · rw [dif_pos hx, Option.some.injEq] at e
        exact e ▸ hx.choose_spec
      · rw [dif_neg hx] at e; cases e
    · intro hk
      have hx : ∃ k, Top fl k u := ⟨k, hk⟩
      rw [dif_pos hx, top_inj hx.choose_spec hk]
  simp only [key] at h
  exact h

/-- The chance of each number to be larger than all others. -/
theorem top_chance (hd : Double fl) {n : Nat} (k : Fin n) :
    1 - (n : ℝ) * (n - 1) * (3 / 2 ^ 53) ≤ n * chance (Top fl k) ∧ n * chance (Top fl k) ≤ 1 := by
  have hn : 0 < n := k.pos
  have h := top_sum (fl := fl) (Finset.univ : Finset (Fin n))
  rw [Finset.sum_congr rfl fun l _ => top_same l k, Finset.sum_const, Finset.card_univ, Fintype.card_fin, nsmul_eq_mul] at h
  rw [← h]
  have e : chance (fun u : Fin n → Pair => ∃ k ∈ (Finset.univ : Finset (Fin n)), Top fl k u) = chance fun u => ∃ k, Top fl k u :=
    chance_congr fun u => by simp
  exact ⟨by rw [e]; exact top_some hd hn, chance_le_one _⟩

/-! ## Forced transitions -/

/-- The number of levels a forced transition prefers. -/
theorem preferred_count (levels : List (Level ℝ)) (p j : Int) [DecidablePred fun l : Level ℝ => HF.Preferred l (2 * j) p] :
    (levels.countP fun l => decide (HF.Preferred l (2 * j) p)) = levels.countP fun l => e1Candidate l p j := by
  congr 1
  funext l
  rw [Bool.eq_iff_iff]
  simp [preferred_iff]

/-- The choice among the preferred levels, with anything done without any. -/
noncomputable def choose (levels : List (Level ℝ)) (p j : Int) (g : Rnd ℝ Nat) : Rnd ℝ Nat :=
  pickE1 p j levels 0 (-1) none >>= fun b => match b with
    | some i => pure i
    | none => g

theorem choose_top (hd : Double fl) (levels : List (Level ℝ)) (p j : Int) (g : Rnd ℝ Nat) {i n : Nat} {l : Level ℝ} (h1 : levels[i]? = some l)
    (h2 : e1Candidate l p j = true) (hn : n = levels.countP fun l => e1Candidate l p j) (u : Fin n → Pair) {r : Fin n}
    (hr : r.val = (levels.take i).countP fun l => e1Candidate l p j) (h : Top fl r u) :
    choose levels p j g (List.ofFn fun k => rng fl (u k)) = .ok (i, []) := by
  obtain ⟨ω, hω⟩ : ∃ ω : ℕ → ℝ, ∀ k : Fin n, ω k = rng fl (u k) :=
    ⟨fun k => if hk : k < n then rng fl (u ⟨k, hk⟩) else 0, fun k => by simp [k.isLt]⟩
  have hpre : (List.ofFn fun k => rng fl (u k)) = pre ω n := by
    refine List.ext_getElem (by simp [pre]) fun k hk _ => ?_
    have hk' : k < n := by simpa using hk
    simp [pre, ← hω ⟨k, hk'⟩]
  obtain ⟨res, r1, _, r3⟩ := pick_run p j levels 0 (-1) none ω
  have hres := r3 i l h1 h2 (by
      have := (rng_range hd (u r)).2.1
      rw [← hr, hω r]
      linarith) (by
      intro k hk hne
      rw [← hr] at hne ⊢
      rw [← hn] at hk
      rw [hω r, hω ⟨k, hk⟩]
      exact h ⟨k, hk⟩ fun e => hne (congrArg Fin.val e))
  rw [hpre, hn]
  unfold choose
  rw [Rnd.bind_of_ok r1, hres]
  simp only [Nat.zero_add]
  rfl

open Classical in
theorem choose_law (hd : Double fl) (levels : List (Level ℝ)) (p j : Int) (g : Rnd ℝ Nat) (i n : Nat)
    (hn : n = levels.countP fun l => e1Candidate l p j) (hp : ∃ l ∈ levels, HF.Preferred l (2 * j) p) :
    |chance (fun u : Fin n → Pair => choose levels p j g (List.ofFn fun k => rng fl (u k)) = .ok (i, []))
      - if ∃ l, levels[i]? = some l ∧ HF.Preferred l (2 * j) p then 1 / (n : ℝ) else 0| ≤ 3 * (n : ℝ) ^ 2 / 2 ^ 53 := by
  have h0 : 0 < n := by
    obtain ⟨l, h1, h2⟩ := hp
    rw [hn]
    exact List.countP_pos_iff.mpr ⟨l, h1, (preferred_iff l p j).mp h2⟩
  have hr0 : (0 : ℝ) < n := by exact_mod_cast h0
  have hδ : (n : ℝ) * (n - 1) * (3 / 2 ^ 53) ≤ 3 * (n : ℝ) ^ 2 / 2 ^ 53 := by
    have : (0 : ℝ) ≤ n * (3 / 2 ^ 53) := by positivity
    nlinarith
  subst hn
  set n := levels.countP fun l => e1Candidate l p j with hn
  -- every number is that of a level
  have lev : ∀ k : Fin n, ∃ d l, ∃ (h1 : levels[d]? = some l) (h2 : e1Candidate l p j = true),
      (⟨_, rank_lt (fun l => e1Candidate l p j) h1 h2⟩ : Fin n) = k := fun k => by
    obtain ⟨d, l, h1, h2, h3⟩ := rank_exists (fun l => e1Candidate l p j) levels k k.isLt
    exact ⟨d, l, h1, h2, Fin.ext h3⟩
  set E : (Fin n → Pair) → Prop := fun u => choose levels p j g (List.ofFn fun k => rng fl (u k)) = .ok (i, []) with hE
  by_cases hi : ∃ l, levels[i]? = some l ∧ HF.Preferred l (2 * j) p
  · rw [if_pos hi]
    obtain ⟨l, h1, h2⟩ := hi
    have h2 := (preferred_iff l p j).mp h2
    set r : Fin n := ⟨_, rank_lt (fun l => e1Candidate l p j) h1 h2⟩ with hr
    have low : chance (Top fl r) ≤ chance E := chance_within fun u hu => choose_top hd levels p j g h1 h2 hn u (by rw [hr]) hu
    have dis : ∀ u, E u → ¬ ∃ k ∈ (Finset.univ : Finset (Fin n)).erase r, Top fl k u := by
      rintro u hu ⟨k, hk, ht⟩
      obtain ⟨d, l', a1, a2, a3⟩ := lev k
      have b := choose_top hd levels p j g a1 a2 hn u (by rw [← a3]) ht
      have hdi : i = d := by
        have := hu.symm.trans b
        simpa using this
      subst hdi
      exact (Finset.mem_erase.1 hk).1 a3.symm
    have up := chance_or dis
    have le := chance_le_one fun u => E u ∨ ∃ k ∈ (Finset.univ : Finset (Fin n)).erase r, Top fl k u
    rw [up, top_sum, Finset.sum_congr rfl fun l _ => top_same l r, Finset.sum_const,
      Finset.card_erase_of_mem (Finset.mem_univ _), Finset.card_univ, Fintype.card_fin, nsmul_eq_mul, Nat.cast_sub h0, Nat.cast_one] at le
    obtain ⟨t1, t2⟩ := top_chance hd r
    generalize chance E = x at *
    generalize chance (Top fl r) = y at *
    have e1 : y ≤ 1 / n := by rw [le_div_iff₀ hr0]; linarith
    have h1n : (1 : ℝ) ≤ n := by exact_mod_cast h0
    have e2 : 1 / (n : ℝ) - (n - 1) * (3 / 2 ^ 53) ≤ y := by
      rw [← sub_nonneg]
      have : y - (1 / (n : ℝ) - (n - 1) * (3 / 2 ^ 53)) = (n * y - (1 - n * (n - 1) * (3 / 2 ^ 53))) / n := by field_simp
      rw [this]
      exact div_nonneg (by linarith) hr0.le
    have e3 : ((n : ℝ) - 1) * (3 / 2 ^ 53) ≤ n * (n - 1) * (3 / 2 ^ 53) := by
      have : (0 : ℝ) ≤ (n - 1) * (3 / 2 ^ 53) := mul_nonneg (by linarith) (by positivity)
      nlinarith
    rw [abs_le]
    constructor <;> linarith
  · rw [if_neg hi, sub_zero, abs_of_nonneg (chance_nonneg _)]
    have dis : ∀ u, E u → ¬ ∃ k ∈ (Finset.univ : Finset (Fin n)), Top fl k u := by
      rintro u hu ⟨k, hk, ht⟩
      obtain ⟨d, l', a1, a2, a3⟩ := lev k
      have b := choose_top hd levels p j g a1 a2 hn u (by rw [← a3]) ht
      have hdi : i = d := by
        have := hu.symm.trans b
        simpa using this
      subst hdi
      exact hi ⟨l', a1, (preferred_iff l' p j).mpr a2⟩
    have up := chance_or dis
    have le := chance_le_one fun u => E u ∨ ∃ k ∈ (Finset.univ : Finset (Fin n)), Top fl k u
    have t := top_some hd h0 (fl := fl)
    have e : chance (fun u : Fin n → Pair => ∃ k ∈ (Finset.univ : Finset (Fin n)), Top fl k u) = chance fun u => ∃ k, Top fl k u :=
      chance_congr fun u => by simp
    linarith

/-- Specification: level `i` is the last of those whose spin is closest to `J` (doubled; at most 1000 units away). -/
def LastClosest (levels : List (Level ℝ)) (J : Int) (i : Nat) : Prop :=
  ∃ l, levels[i]? = some l ∧ |l.spin2 - J| ≤ 2000 ∧ (∀ l' ∈ levels, |l.spin2 - J| ≤ |l'.spin2 - J|) ∧
    ∀ k l', i < k → levels[k]? = some l' → |l.spin2 - J| < |l'.spin2 - J|

open Classical in
/-- Specification: probability that a decay without open channel, from a state of (doubled) spin `J` and parity `p`, ends on level
`i`: the preferred levels are equally probable; without any the last closest level is taken. -/
noncomputable def bypassTo (levels : List (Level ℝ)) (p J : Int) (i : Nat) : ℝ :=
  if ∃ l ∈ levels, HF.Preferred l J p then
    if ∃ l, levels[i]? = some l ∧ HF.Preferred l J p then 1 / (levels.countP fun l => HF.Preferred l J p) else 0
  else if LastClosest levels J i then 1 else 0

theorem closestLast_min {j : Int} : ∀ {ls : List (Level ℝ)} {i : Nat} {d : Int} {best : Option Nat} {b : Nat},
    closestLast j ls i d best = some b → (best = some b ∧ ∀ l ∈ ls, d < |l.spin2 - 2 * j|) ∨
      ∃ k l, b = i + k ∧ ls[k]? = some l ∧ |l.spin2 - 2 * j| ≤ d ∧ (∀ l' ∈ ls, |l.spin2 - 2 * j| ≤ |l'.spin2 - 2 * j|) ∧
        ∀ k' l', k < k' → ls[k']? = some l' → |l.spin2 - 2 * j| < |l'.spin2 - 2 * j| := by
  intro ls
  induction ls with
  | nil => intro i d best b h; exact Or.inl ⟨h, by simp⟩
  | cons a ls ih =>
    intro i d best b h
    rw [closestLast] at h
    by_cases hc : |a.spin2 - 2 * j| ≤ d
    · rw [if_pos hc] at h
      right
      rcases ih h with ⟨h1, h2⟩ | ⟨k, l, h1, h2, h3, h4, h5⟩
      · refine ⟨0, a, by simpa using h1.symm, rfl, hc, ?_, ?_⟩
        · intro l' hl'
          rcases List.mem_cons.mp hl' with rfl | hl'
          · exact le_rfl
          · exact (h2 l' hl').le
        · intro k' l' hk hl'
          obtain ⟨m, rfl⟩ : ∃ m, k' = m + 1 := ⟨k' - 1, by omega⟩
          exact h2 l' (List.mem_of_getElem? (by simpa using hl'))
      · refine ⟨k + 1, l, by omega, by simpa using h2, h3.trans hc, ?_, ?_⟩
        · intro l' hl'
          rcases List.mem_cons.mp hl' with rfl | hl'
          · exact h3
          · exact h4 l' hl'
        · intro k' l' hk hl'
          obtain ⟨m, rfl⟩ : ∃ m, k' = m + 1 := ⟨k' - 1, by omega⟩
          exact h5 m l' (by omega) (by simpa using hl')
    · rw [if_neg hc] at h
      rcases ih h with ⟨h1, h2⟩ | ⟨k, l, h1, h2, h3, h4, h5⟩
      · left
        refine ⟨h1, fun l' hl' => ?_⟩
        rcases List.mem_cons.mp hl' with rfl | hl'
        · exact not_le.mp hc
        · exact h2 l' hl'
      · right
        refine ⟨k + 1, l, by omega, by simpa using h2, h3, ?_, ?_⟩
        · intro l' hl'
          rcases List.mem_cons.mp hl' with rfl | hl'
          · exact h3.trans (not_le.mp hc).le
          · exact h4 l' hl'
        · intro k' l' hk hl'
          obtain ⟨m, rfl⟩ : ∃ m, k' = m + 1 := ⟨k' - 1, by omega⟩
          exact h5 m l' (by omega) (by simpa using hl')

theorem closestLast_none {j : Int} : ∀ {ls : List (Level ℝ)} {i : Nat} {d : Int} {best : Option Nat}, closestLast j ls i d best = none →
    ∀ l ∈ ls, d < |l.spin2 - 2 * j| := by
  intro ls
  induction ls with
  | nil => intro i d best _ l hl; cases hl
  | cons a ls ih =>
    intro i d best h l hl
    rw [closestLast] at h
    by_cases hc : |a.spin2 - 2 * j| ≤ d
    · rw [if_pos hc] at h
      obtain ⟨b', hb⟩ := MC.closestLast_best (j := j) ls (i + 1) |a.spin2 - 2 * j| i
      rw [hb] at h
      cases h
    · rw [if_neg hc] at h
      rcases List.mem_cons.mp hl with rfl | hl
      · exact not_le.mp hc
      · exact ih h l hl

theorem closestLast_iff (levels : List (Level ℝ)) (j : Int) (i : Nat) :
    closestLast j levels 0 2000 none = some i ↔ LastClosest levels (2 * j) i := by
  have key : ∀ {i}, closestLast j levels 0 2000 none = some i → LastClosest levels (2 * j) i := by
    intro i h
    rcases closestLast_min h with ⟨h4, -⟩ | ⟨k, l, h4, h5, h6, h7, h8⟩
    · cases h4
    · have : i = k := by omega
      subst this
      exact ⟨l, h5, h6, h7, fun k l' hk hl => h8 k l' hk hl⟩
  constructor
  · exact key
  · intro h
    cases hc : closestLast j levels 0 2000 none with
    | none =>
      obtain ⟨l, h1, h2, -⟩ := h
      have := closestLast_none hc l (List.mem_of_getElem? h1)
      omega
    | some b =>
      obtain ⟨l, a1, -, a3, a4⟩ := h
      obtain ⟨l', b1, -, b3, b4⟩ := key hc
      rcases lt_trichotomy i b with h | h | h
      · have := a4 b l' h b1
        have := b3 l (List.mem_of_getElem? a1)
        omega
      · rw [h]
      · have := b4 i l h a1
        have := a3 l' (List.mem_of_getElem? b1)
        omega

/-- **C154**: over all random bits, a transition forced from the state with spin index `j` and parity `p` ends on each preferred
level with the same chance, up to the chance that two of the numbers are equal; it uses one number for each preferred level. Without
preferred levels it ends on the first level of the closest spin. -/
theorem C154_forced (hd : Double fl) (levels : List (Level ℝ)) (p j : Int) (i n : Nat)
    (hn : n = levels.countP fun l => HF.Preferred l (2 * j) p) :
    |chance (fun u : Fin n → Pair => forced levels p j (List.ofFn fun k => rng fl (u k)) = .ok (i, [])) - forcedTo levels p (2 * j) i|
      ≤ 3 * (n : ℝ) ^ 2 / 2 ^ 53 := by
  classical
  rw [preferred_count] at hn
  by_cases hp : ∃ l ∈ levels, HF.Preferred l (2 * j) p
  · unfold forcedTo
    rw [if_pos hp, preferred_count, ← hn]
    exact choose_law hd levels p j _ i n hn hp
  · have hno : ∀ l ∈ levels, e1Candidate l p j = false := by
      intro l hl
      rw [← Bool.not_eq_true, ← preferred_iff]
      exact fun h => hp ⟨l, hl, h⟩
    have hz : n = 0 := by rw [hn, List.countP_eq_zero]; intro l hl; rw [hno l hl]; simp
    subst hz
    have hrun : ∀ u : Fin 0 → Pair, forced levels p j (List.ofFn fun k => rng fl (u k)) = .ok (i, []) ↔ FirstClosest levels (2 * j) i := by
      intro u
      unfold forced
      rw [Rnd.bind_of_ok (pick_none p j levels 0 (-1) none _ hno), ← closest_iff]
      simp only [List.ofFn_zero]
      rw [Rnd.get_ok]
      simp
    unfold forcedTo
    rw [if_neg hp, chance_congr hrun]
    by_cases hc : FirstClosest levels (2 * j) i
    · rw [if_pos hc]
      have : chance (fun _ : Fin 0 → Pair => FirstClosest levels (2 * j) i) = 1 := by
        rw [← chance_true (α := Fin 0 → Pair)]
        exact chance_congr fun u => iff_of_true hc trivial
      rw [this]; norm_num
    · rw [if_neg hc]
      have : chance (fun _ : Fin 0 → Pair => FirstClosest levels (2 * j) i) = 0 := by
        rw [← chance_false (α := Fin 0 → Pair)]
        exact chance_congr fun u => iff_of_false hc not_false
      rw [this]; norm_num

/-- **C154**, a decay without open channel (`specPopulationBypass`): the same law for the preferred levels; without any it ends on the
last level of the closest spin. -/
theorem C154_bypass (hd : Double fl) (levels : List (Level ℝ)) (p j : Int) (i n : Nat)
    (hn : n = levels.countP fun l => HF.Preferred l (2 * j) p) :
    |chance (fun u : Fin n → Pair => bypass levels p j (List.ofFn fun k => rng fl (u k)) = .ok (i, [])) - bypassTo levels p (2 * j) i|
      ≤ 3 * (n : ℝ) ^ 2 / 2 ^ 53 := by
  classical
  rw [preferred_count] at hn
  by_cases hp : ∃ l ∈ levels, HF.Preferred l (2 * j) p
  · unfold bypassTo
    rw [if_pos hp, preferred_count, ← hn]
    exact choose_law hd levels p j _ i n hn hp
  · have hno : ∀ l ∈ levels, e1Candidate l p j = false := by
      intro l hl
      rw [← Bool.not_eq_true, ← preferred_iff]
      exact fun h => hp ⟨l, hl, h⟩
    have hz : n = 0 := by rw [hn, List.countP_eq_zero]; intro l hl; rw [hno l hl]; simp
    subst hz
    have hrun : ∀ u : Fin 0 → Pair, bypass levels p j (List.ofFn fun k => rng fl (u k)) = .ok (i, []) ↔ LastClosest levels (2 * j) i := by
      intro u
      unfold bypass
      rw [Rnd.bind_of_ok (pick_none p j levels 0 (-1) none _ hno), ← closestLast_iff]
      simp only [List.ofFn_zero]
      rw [Rnd.get_ok]
      simp
    unfold bypassTo
    rw [if_neg hp, chance_congr hrun]
    by_cases hc : LastClosest levels (2 * j) i
    · rw [if_pos hc]
      have : chance (fun _ : Fin 0 → Pair => LastClosest levels (2 * j) i) = 1 := by
        rw [← chance_true (α := Fin 0 → Pair)]
        exact chance_congr fun u => iff_of_true hc trivial
      rw [this]; norm_num
    · rw [if_neg hc]
      have : chance (fun _ : Fin 0 → Pair => LastClosest levels (2 * j) i) = 0 := by
        rw [← chance_false (α := Fin 0 → Pair)]
        exact chance_congr fun u => iff_of_false hc not_false
      rw [this]; norm_num

/-- From a state of spin 1 and positive parity, the two levels of negative parity and spins 1 and 2 are reached half of the time each. -/
example (hd : Double fl) : |chance (fun u : Fin 2 → Pair => forced [⟨0, 0, 1, 0, []⟩, ⟨1, 2, -1, 0, []⟩, ⟨2, 4, -1, 0, []⟩] 1 1
    (List.ofFn fun k => rng fl (u k)) = .ok (2, [])) - 1 / 2| ≤ 12 / 2 ^ 53 := by
  have h := C154_forced hd [⟨0, 0, 1, 0, []⟩, ⟨1, 2, -1, 0, []⟩, ⟨2, 4, -1, 0, []⟩] 1 1 2 2 (by norm_num [HF.Preferred])
  have : forcedTo [⟨0, 0, 1, 0, []⟩, ⟨1, 2, -1, 0, []⟩, ⟨2, 4, -1, 0, []⟩] 1 (2 * 1) 2 = 1 / 2 := by
    unfold forcedTo
    rw [if_pos ⟨⟨1, 2, -1, 0, []⟩, by simp, by decide⟩, if_pos ⟨⟨2, 4, -1, 0, []⟩, rfl, by decide⟩]
    norm_num [HF.Preferred]
  rw [this] at h
  norm_num at h ⊢
  exact h

/-- Without a level of opposite parity, of two levels equally close in spin a forced transition takes the first and a decay without
open channel the last. -/
example (hd : Double fl) : chance (fun u : Fin 0 → Pair => forced [⟨0, 0, 1, 0, []⟩, ⟨1, 4, 1, 0, []⟩] 1 1
      (List.ofFn fun k => rng fl (u k)) = .ok (0, [])) = 1 ∧
    chance (fun u : Fin 0 → Pair => bypass [⟨0, 0, 1, 0, []⟩, ⟨1, 4, 1, 0, []⟩] 1 1
      (List.ofFn fun k => rng fl (u k)) = .ok (1, [])) = 1 := by
  have no : ¬ ∃ l ∈ ([⟨0, 0, 1, 0, []⟩, ⟨1, 4, 1, 0, []⟩] : List (Level ℝ)), HF.Preferred l (2 * 1) 1 := by simp [HF.Preferred]
  have h := C154_forced hd [⟨0, 0, 1, 0, []⟩, ⟨1, 4, 1, 0, []⟩] 1 1 0 0 (by norm_num [HF.Preferred])
  have h' := C154_bypass hd [⟨0, 0, 1, 0, []⟩, ⟨1, 4, 1, 0, []⟩] 1 1 1 0 (by norm_num [HF.Preferred])
  have e : forcedTo [⟨0, 0, 1, 0, []⟩, ⟨1, 4, 1, 0, []⟩] 1 (2 * 1) 0 = 1 := by
    unfold forcedTo
    rw [if_neg no, if_pos ⟨_, rfl, by norm_num, by simp, fun k _ hk => by omega⟩]
  have e' : bypassTo [⟨0, 0, 1, 0, []⟩, ⟨1, 4, 1, 0, []⟩] 1 (2 * 1) 1 = 1 := by
    unfold bypassTo
    rw [if_neg no, if_pos ⟨_, rfl, by norm_num, by simp, fun k l hk hl => by
      obtain ⟨m, rfl⟩ : ∃ m, k = m + 2 := ⟨k - 2, by omega⟩
      simp at hl⟩]
  rw [e] at h
  rw [e'] at h'
  rw [Nat.cast_zero, zero_pow two_ne_zero, mul_zero, zero_div, abs_nonpos_iff, sub_eq_zero] at h h'
  exact ⟨h, h'⟩

end CGMF.Props

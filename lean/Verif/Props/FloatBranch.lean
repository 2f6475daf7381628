import Verif.Model.FloatBranch
import Verif.Props.FloatSumChance
import Verif.Props.FloatIsotropy

/-!
# C151: the photons of a level over all random bits

`chance` (`Props/FloatPick.lean`) is the share of the outputs of the engine for which something happens.
-/

namespace CGMF.Props

open CGMF CGMF.Fp CGMF.Twist CGMF.Pick

variable {fl : ℝ → ℝ}

theorem runSum_total {l : List ℝ} {k : Nat} (hk : k ≤ l.length) : runSum fl 0 l k = total fl (fun j => l.getD j 0) k := by
  induction k with
  | zero => simp [runSum, total]
  | succ k ih =>
    rw [runSum_succ 0 l (by omega), ih (by omega), total, List.getD_eq_getElem?_getD, List.getElem?_eq_getElem (by omega)]
    rfl

theorem sum_take_range (l : List ℝ) {k : Nat} (hk : k ≤ l.length) : ∑ j ∈ Finset.range k, l.getD j 0 = (l.take k).sum := by
  induction k with
  | zero => simp
  | succ k ih =>
    rw [Finset.sum_range_succ, ih (by omega), List.take_succ_eq_append_getElem (by omega), List.sum_append, List.sum_singleton,
      List.getD_eq_getElem?_getD, List.getElem?_eq_getElem (by omega)]
    rfl

/-- The sum of a list of numbers that are not negative. -/
theorem list_total (h : Double fl) {l : List ℝ} (hl : ∀ p ∈ l, 0 ≤ p) (hn : l.length ≤ 2 ^ 52) :
    |runSum fl 0 l l.length - l.sum| ≤ l.sum * (l.length / 2 ^ 52) + l.length * 2 ^ (-1074 : Int) := by
  have := (total_near h (weight := fun j => l.getD j 0) (fun j => by
    rw [List.getD_eq_getElem?_getD]
    rcases lt_or_ge j l.length with hj | hj
    · rw [List.getElem?_eq_getElem hj]; exact hl _ (List.getElem_mem hj)
    · rw [List.getElem?_eq_none hj]; exact le_rfl) l.length hn).2
  rw [sum_take_range l le_rfl, List.take_length, ← runSum_total le_rfl] at this
  exact this

theorem foldl_runSum (g : List (ℝ × ℝ)) : g.foldl (fun s x => fl (s + x.1)) 0 = runSum fl 0 (g.map (·.1)) (g.map (·.1)).length := by
  unfold runSum
  rw [List.take_length, List.foldl_map]

/-- The chance of a transition is the product of the chances of the choice and of the conversion. -/
theorem transition_chance (g : List (ℝ × ℝ)) (j : Nat) (b : Bool) :
    chance (fun w => transition fl g w = some (j, b))
      = chance (fun w => pickSum fl 0 (rng fl w) (g.map (·.1)) = some j) *
        chance (fun w => decide (gratio fl ((g.map (·.2)).getD j 0) < rng fl w) = b) := by
  rw [← chance_and]
  refine chance_congr fun w => ?_
  unfold transition
  cases e : pickSum fl 0 (rng fl w.1) (g.map (·.1)) with
  | none => simp
  | some i =>
    simp only [Option.some.injEq, Prod.mk.injEq]
    constructor
    · rintro ⟨rfl, r⟩; exact ⟨rfl, r⟩
    · rintro ⟨rfl, r⟩; exact ⟨rfl, r⟩

theorem one_double : IsDouble (1 : ℝ) := double_one

/-- The share of photons against electrons. -/
theorem gratio_near (h : Double fl) {ic : ℝ} (h0 : 0 ≤ ic) (h1 : ic ≤ 2 ^ 100) :
    0 ≤ gratio fl ic ∧ gratio fl ic ≤ 1 ∧ |gratio fl ic - 1 / (1 + ic)| ≤ 3 / 2 ^ 53 := by
  unfold gratio
  have a := h.any (x := 1 + ic) (by norm_num)
  have t := tiny
  have t' : (1 : ℝ) / 2 ^ 53 / 2 ^ 400 / 8 ≤ 1 / 2 ^ 53 / 8 := by
    have : (1 : ℝ) / 2 ^ 53 / 2 ^ 400 ≤ 1 / 2 ^ 53 := div_le_self (by positivity) (one_le_pow₀ (by norm_num))
    linarith
  have y1 : 1 ≤ fl (1 + ic) := h.ge_of one_double (by linarith)
  have y0 : 0 < fl (1 + ic) := by linarith
  have rel : |fl (1 + ic) - (1 + ic)| ≤ (1 + ic) * (9 / 8 / 2 ^ 53) := by
    rw [abs_of_nonneg (show 0 ≤ 1 + ic by linarith)] at a
    refine a.trans ?_
    have : (1 + ic) * (9 / 8 / 2 ^ 53) = (1 + ic) / 2 ^ 53 + (1 + ic) * (1 / 2 ^ 53 / 8) := by ring
    rw [this]
    have : 1 * (1 / 2 ^ 53 / 8) ≤ (1 + ic) * (1 / 2 ^ 53 / 8 : ℝ) := mul_le_mul_of_nonneg_right (by linarith) (by positivity)
    linarith
  have q0 : 0 ≤ 1 / fl (1 + ic) := by positivity
  have q1 : 1 / fl (1 + ic) ≤ 1 := by rw [div_le_one y0]; exact y1
  have b := h.any (x := 1 / fl (1 + ic)) (by norm_num)
  rw [abs_of_nonneg q0] at b
  refine ⟨h.nonneg q0, h.le_of one_double q1, ?_⟩
  have c : |1 / fl (1 + ic) - 1 / (1 + ic)| ≤ 9 / 8 / 2 ^ 53 := by
    rw [div_sub_div _ _ y0.ne' (by linarith : (1 + ic) ≠ 0), abs_div, abs_of_pos (mul_pos y0 (by linarith)), div_le_iff₀ (mul_pos y0 (by linarith)),
      one_mul, mul_one, abs_sub_comm]
    refine rel.trans ?_
    have : 1 * ((1 + ic) * (9 / 8 / 2 ^ 53)) ≤ fl (1 + ic) * ((1 + ic) * (9 / 8 / 2 ^ 53)) := mul_le_mul_of_nonneg_right y1 (by positivity)
    linarith
  have r : fl (1 / fl (1 + ic)) - 1 / (1 + ic) = (fl (1 / fl (1 + ic)) - 1 / fl (1 + ic)) + (1 / fl (1 + ic) - 1 / (1 + ic)) := by ring
  rw [r]
  refine (abs_add_le _ _).trans ?_
  have : 1 / fl (1 + ic) / 2 ^ 53 ≤ 1 / 2 ^ 53 := div_le_div_of_nonneg_right q1 (by positivity)
  norm_num at *
  linarith

theorem conversion_chance (h : Double fl) {ic : ℝ} (h0 : 0 ≤ ic) (h1 : ic ≤ 2 ^ 100) (b : Bool) :
    |chance (fun w => decide (gratio fl ic < rng fl w) = b) - (if b then ic / (1 + ic) else 1 / (1 + ic))| ≤ 10 / 2 ^ 53 := by
  obtain ⟨g0, g1, g⟩ := gratio_near h h0 h1
  have p : (1 : ℝ) / 2 ^ 400 ≤ 1 := by rw [div_le_one (by positivity)]; exact one_le_pow₀ (by norm_num)
  have acc := C149_accept h (m := 1) p g0 g1
  rw [_root_.div_one] at acc
  have e : ∀ w, fl (rng fl w * 1) = rng fl w := fun w => by rw [mul_one]; exact h.fix (rng_range h w).1
  simp only [e] at acc
  have no : |chance (fun w => ¬ gratio fl ic < rng fl w) - 1 / (1 + ic)| ≤ 10 / 2 ^ 53 := by
    have r : chance (fun w => ¬ gratio fl ic < rng fl w) - 1 / (1 + ic)
        = (chance (fun w => ¬ gratio fl ic < rng fl w) - gratio fl ic) + (gratio fl ic - 1 / (1 + ic)) := by ring
    rw [r]
    refine (abs_add_le _ _).trans ((add_le_add acc g).trans ?_)
    norm_num
  cases b
  · simpa using no
  · have tot := chance_or (E := fun w => gratio fl ic < rng fl w) (F := fun w => ¬ gratio fl ic < rng fl w) (fun a ha hb => hb ha)
    rw [chance_congr (F := fun _ => True) (fun a => iff_true_intro (em _)), chance_true] at tot
    have e : ic / (1 + ic) = 1 - 1 / (1 + ic) := by field_simp; ring
    simp only [decide_eq_true_eq, if_true]
    rw [e, abs_sub_comm]
    refine le_trans (le_of_eq ?_) no
    congr 1
    linarith

theorem recip_share {T S t p q n : ℝ} (hT : 0 < T) (hp : 0 ≤ p) (hn0 : 0 ≤ n) (hn : n ≤ 2 ^ 20) (hS : |S - T| ≤ T * ((n + 1 / 8) / 2 ^ 52))
    (ht : |t - 1 / S| ≤ 1 / S / 2 ^ 53) (hq : |q - p * t| ≤ p * t / 2 ^ 53 + 1 / 2 ^ 90) : 0 < S ∧ |q - p / T| ≤ p / T * ((n + 2) / 2 ^ 52) + 1 / 2 ^ 90 := by
  have hS := abs_le.1 hS
  have small : (n + 1 / 8) / 2 ^ 52 ≤ 1 / 2 ^ 30 := by norm_num at *; linarith
  have hS0 : T * (1 - 1 / 2 ^ 30) ≤ S := by
    have := mul_le_mul_of_nonneg_left small hT.le
    linarith [hS.1]
  have S0 : 0 < S := lt_of_lt_of_le (mul_pos hT (by norm_num)) hS0
  refine ⟨S0, ?_⟩
  obtain ⟨k, hk⟩ : ∃ k, k = t * T := ⟨_, rfl⟩
  have tS : |t * S - 1| ≤ 1 / 2 ^ 53 := by
    have : t * S - 1 = (t - 1 / S) * S := by field_simp
    rw [this, abs_mul, abs_of_pos S0]
    refine (mul_le_mul_of_nonneg_right ht S0.le).trans (le_of_eq ?_)
    field_simp
  have tS := abs_le.1 tS
  obtain ⟨σ, hσ⟩ : ∃ σ, σ = S / T := ⟨_, rfl⟩
  have eS : S = σ * T := by rw [hσ]; field_simp
  have eks : t * S = k * σ := by rw [hk, eS]; ring
  rw [eks] at tS
  have s1 : |σ - 1| ≤ (n + 1 / 8) / 2 ^ 52 := by
    rw [abs_le]
    constructor
    · refine le_of_mul_le_mul_right ?_ hT
      rw [sub_mul, ← eS]; linarith [hS.1]
    · refine le_of_mul_le_mul_right ?_ hT
      rw [sub_mul, ← eS]; linarith [hS.2]
  have s1 := abs_le.1 s1
  have σ0 : 1 - 1 / 2 ^ 30 ≤ σ := by linarith [s1.1]
  have σp : 0 < σ := by norm_num at *; linarith
  have kk : |k - 1| ≤ (n + 3 / 4) / 2 ^ 52 := by
    have c : (n + 5 / 8) / 2 ^ 52 ≤ (n + 3 / 4) / 2 ^ 52 * σ := by
      refine le_trans ?_ (mul_le_mul_of_nonneg_left σ0 (by positivity))
      norm_num at *; linarith
    rw [abs_le]
    constructor
    · refine le_of_mul_le_mul_right ?_ σp
      rw [sub_mul, neg_mul, one_mul]
      norm_num at *; linarith [tS.1, s1.2]
    · refine le_of_mul_le_mul_right ?_ σp
      rw [sub_mul, one_mul]
      norm_num at *; linarith [tS.2, s1.1]
  have k2 : k ≤ 2 := by
    have := (abs_le.1 kk).2
    norm_num at *; linarith
  have ept : p * t = p / T * k := by rw [hk]; field_simp
  have s0 : 0 ≤ p / T := by positivity
  rw [ept] at hq
  generalize p / T = s at *
  have r : q - s = (q - s * k) + s * (k - 1) := by ring
  rw [r]
  refine (abs_add_le _ _).trans ?_
  rw [abs_mul, abs_of_nonneg s0]
  have a1 := mul_le_mul_of_nonneg_left kk s0
  have a2 := mul_le_mul_of_nonneg_left k2 s0
  have e : s * ((n + 2) / 2 ^ 52) = s * ((n + 3 / 4) / 2 ^ 52) + s * 2 / 2 ^ 53 + s / 4 / 2 ^ 52 := by ring
  have : 0 ≤ s / 4 / 2 ^ 52 := by positivity
  have : s * k / 2 ^ 53 ≤ s * 2 / 2 ^ 53 := div_le_div_of_nonneg_right a2 (by positivity)
  linarith

/-- The intensities after normalisation. -/
theorem normalised_near (h : Double fl) {l : List ℝ} (hl : ∀ p ∈ l, 0 ≤ p) (hn : l.length ≤ 2 ^ 20) (hb : l.sum ≤ 2 ^ 100) (big : 1 / 2 ^ 300 ≤ l.sum) :
    runSum fl 0 l l.length ≠ 0 ∧ ∀ p ∈ l, 0 ≤ fl (p * fl (1 / runSum fl 0 l l.length)) ∧
      |fl (p * fl (1 / runSum fl 0 l l.length)) - p / l.sum| ≤ p / l.sum * ((l.length + 2) / 2 ^ 52) + 1 / 2 ^ 90 := by
  have T0 : 0 < l.sum := lt_of_lt_of_le (by positivity) big
  have n0 : (0 : ℝ) ≤ l.length := Nat.cast_nonneg _
  have n1 : (l.length : ℝ) ≤ 2 ^ 20 := by exact_mod_cast hn
  have lt := list_total h hl (hn.trans (by norm_num))
  have tn := tiny
  have t90 : (2 : ℝ) ^ (-1074 : Int) / 2 ≤ 1 / 2 ^ 90 := by
    refine tn.trans ?_
    have : (1 : ℝ) / 2 ^ 53 / 2 ^ 400 ≤ 1 / 2 ^ 53 / 2 ^ 40 :=
      div_le_div_of_nonneg_left (by positivity) (by positivity) (pow_le_pow_right₀ (by norm_num) (by norm_num))
    norm_num at this ⊢
    linarith
  have hS : |runSum fl 0 l l.length - l.sum| ≤ l.sum * ((l.length + 1 / 8) / 2 ^ 52) := by
    refine lt.trans ?_
    have e : l.sum * ((l.length + 1 / 8) / 2 ^ 52) = l.sum * (l.length / 2 ^ 52) + l.sum * (1 / 8 / 2 ^ 52) := by ring
    rw [e]
    refine add_le_add le_rfl ?_
    have e4 : (1 : ℝ) / 2 ^ 53 / 2 ^ 400 / 8 = (1 / 2 ^ 300) / 2 ^ 100 / 2 ^ 53 / 8 := by
      have : (2 : ℝ) ^ 400 = 2 ^ 300 * 2 ^ 100 := by rw [← pow_add]
      rw [this]
      have : (2 : ℝ) ^ 300 ≠ 0 := by positivity
      generalize (2 : ℝ) ^ 300 = y at *
      field_simp
    rw [e4] at tn
    have z0 : (0 : ℝ) ≤ 2 ^ (-1074 : Int) := by positivity
    have a := mul_le_mul_of_nonneg_right n1 z0
    generalize (1 : ℝ) / 2 ^ 300 = ε at *
    generalize (2 : ℝ) ^ (-1074 : Int) = z at *
    norm_num at *
    linarith
  obtain ⟨lo, hi⟩ := abs_le.1 hS
  set T := l.sum with hT
  set S := runSum fl 0 l l.length with hSd
  have small : ((l.length : ℝ) + 1 / 8) / 2 ^ 52 ≤ 1 / 2 := by
    generalize (l.length : ℝ) = N at n1
    clear * - n1
    norm_num at *; linarith
  have sm := mul_le_mul_of_nonneg_left small T0.le
  have S0 : 0 < S := by linarith
  have S1 : S ≤ 2 ^ 101 := by
    have : (2 : ℝ) ^ 101 = 2 * 2 ^ 100 := by norm_num
    linarith
  have q0 : 0 < 1 / S := by positivity
  have q1 : (2 : ℝ) ^ (-400 : Int) ≤ 1 / S := by
    rw [le_div_iff₀ S0, zpow_neg, inv_mul_le_iff₀ (by positivity), mul_one]
    exact S1.trans (by rw [← zpow_natCast]; exact zpow_le_zpow_right₀ (by norm_num) (by norm_num))
  have ht := rel53 h q1
  refine ⟨S0.ne', fun p hp => ?_⟩
  have p0 := hl p hp
  have t0 : 0 ≤ fl (1 / S) := h.nonneg q0.le
  have pt := mul_nonneg p0 t0
  have hq := h.any (x := p * fl (1 / S)) (by norm_num)
  rw [abs_of_nonneg pt] at hq
  exact ⟨h.nonneg pt, (recip_share T0 p0 n0 n1 hS ht (by norm_num at hq t90 ⊢; linarith)).2⟩

theorem shares_sum {f : ℝ → ℝ} {T c τ : ℝ} (l : List ℝ) (hf : ∀ p ∈ l, |f p - p / T| ≤ p / T * c + τ) :
    |(l.map f).sum - l.sum / T| ≤ l.sum / T * c + l.length * τ := by
  induction l with
  | nil => simp
  | cons p l ih =>
    have a := hf p (by simp)
    have b := ih fun q hq => hf q (by simp [hq])
    simp only [List.map_cons, List.sum_cons, List.length_cons, Nat.cast_add, Nat.cast_one]
    have e : f p + (l.map f).sum - (p + l.sum) / T = (f p - p / T) + ((l.map f).sum - l.sum / T) := by ring
    rw [e]
    refine (abs_add_le _ _).trans ((add_le_add a b).trans (le_of_eq ?_))
    ring

/-- The chance of a transition of a level whose intensities are normalised. -/
theorem choice_chance (h : Double fl) {l : List ℝ} (hl : ∀ p ∈ l, 0 ≤ p) (hn : l.length ≤ 2 ^ 20) {f : ℝ → ℝ} (T0 : 0 < l.sum)
    (hf : ∀ p ∈ l, 0 ≤ f p ∧ |f p - p / l.sum| ≤ p / l.sum * ((l.length + 2) / 2 ^ 52) + 1 / 2 ^ 90) {j : Nat} (hj : j < l.length) :
    |chance (fun w => pickSum fl 0 (rng fl w) (l.map f) = some j) - l[j] / l.sum| ≤ (2 * l.length + 4) / 2 ^ 50 := by
  have n0 : (0 : ℝ) ≤ l.length := Nat.cast_nonneg _
  have n1 : (l.length : ℝ) ≤ 2 ^ 20 := by exact_mod_cast hn
  have tot := shares_sum l fun p hp => (hf p hp).2
  rw [div_self T0.ne', one_mul] at tot
  have ex : (l.map f).sum - 1 ≤ (l.length + 3) / 2 ^ 52 := by
    have := (abs_le.1 tot).2
    generalize (l.length : ℝ) = N at *
    clear * - this n1
    norm_num at *; linarith
  have key := C126_chance h (l := l.map f) (by simpa using fun p hp => (hf p hp).1) (by rw [List.length_map]; exact hn.trans (by norm_num))
    (by
      generalize (l.length : ℝ) = N at *
      clear * - ex n1
      norm_num at *; linarith) (i := j) (by simpa using hj)
  rw [List.getElem_map] at key
  have hm := List.getElem_mem hj
  have one := (hf _ hm).2
  have share : l[j] / l.sum ≤ 1 := by
    rw [div_le_one T0]
    exact List.single_le_sum hl _ hm
  have sc : l[j] / l.sum * ((l.length + 2) / 2 ^ 52) ≤ 1 * (((l.length : ℝ) + 2) / 2 ^ 52) := mul_le_mul_of_nonneg_right share (by positivity)
  have jn : (j : ℝ) + 1 ≤ l.length := by exact_mod_cast hj
  have mx : max 0 ((l.map f).sum - 1) ≤ (l.length + 3) / 2 ^ 52 := max_le (by positivity) ex
  have r : chance (fun w => pickSum fl 0 (rng fl w) (l.map f) = some j) - l[j] / l.sum
    = (chance (fun w => pickSum fl 0 (rng fl w) (l.map f) = some j) - f l[j]) + (f l[j] - l[j] / l.sum) := by ring
  rw [r]
  refine (abs_add_le _ _).trans ((add_le_add (key.trans (add_le_add le_rfl mx)) one).trans ?_)
  generalize l[j] / l.sum * ((l.length + 2) / 2 ^ 52) = x at *
  generalize (l.length : ℝ) = N at *
  clear * - sc jn
  norm_num at *
  linarith

theorem product_near {a b x y α β : ℝ} (ha : |a - x| ≤ α) (hb : |b - y| ≤ β) (b0 : 0 ≤ b) (b1 : b ≤ 1) (x0 : 0 ≤ x) (x1 : x ≤ 1) :
    |a * b - x * y| ≤ α + β := by
  have r : a * b - x * y = (a - x) * b + x * (b - y) := by ring
  rw [r]
  refine (abs_add_le _ _).trans ?_
  rw [abs_mul, abs_mul, abs_of_nonneg b0, abs_of_nonneg x0]
  have := mul_le_mul_of_nonneg_left b1 (abs_nonneg (a - x))
  have := mul_le_mul_of_nonneg_right x1 (abs_nonneg (b - y))
  linarith

/-- **C151.** A level whose intensities in the file are not all zero: the photon of transition `j` is emitted with the chance of its share of
the intensities times `1/(1 + ic)`, and an electron takes its place with the chance of that share times `ic/(1 + ic)`. -/
theorem C151_photon (h : Double fl) {g : List (ℝ × ℝ)} (hn : g.length ≤ 2 ^ 20) (hpe : ∀ x ∈ g, 0 ≤ x.1) (hic : ∀ x ∈ g, 0 ≤ x.2 ∧ x.2 ≤ 2 ^ 100)
    (lo : 1 / 2 ^ 300 ≤ (g.map (·.1)).sum) (hi : (g.map (·.1)).sum ≤ 2 ^ 100) {j : Nat} (hj : j < g.length) :
    |chance (fun w => transition fl (normalizeBranch fl g) w = some (j, false)) - g[j].1 / (g.map (·.1)).sum * (1 / (1 + g[j].2))|
        ≤ (2 * g.length + 6) / 2 ^ 50 ∧
    |chance (fun w => transition fl (normalizeBranch fl g) w = some (j, true)) - g[j].1 / (g.map (·.1)).sum * (g[j].2 / (1 + g[j].2))|
        ≤ (2 * g.length + 6) / 2 ^ 50 := by
  have hl : ∀ p ∈ g.map (·.1), 0 ≤ p := by simpa using fun a b hab => hpe (a, b) hab
  have T0 : 0 < (g.map (·.1)).sum := lt_of_lt_of_le (by positivity) lo
  obtain ⟨ne, near⟩ := normalised_near h hl (by simpa using hn) hi lo
  have form : normalizeBranch fl g = g.map fun x => (fl (x.1 * fl (1 / runSum fl 0 (g.map (·.1)) (g.map (·.1)).length)), x.2) := by
    unfold normalizeBranch
    rw [foldl_runSum, if_neg ne]
  have e1 : (normalizeBranch fl g).map (·.1) = (g.map (·.1)).map fun p => fl (p * fl (1 / runSum fl 0 (g.map (·.1)) (g.map (·.1)).length)) := by
    rw [form, List.map_map, List.map_map]; rfl
  have e2 : ((normalizeBranch fl g).map (·.2)).getD j 0 = g[j].2 := by
    rw [form, List.map_map, List.getD_eq_getElem?_getD, List.getElem?_map, List.getElem?_eq_getElem hj]; rfl
  have ch := choice_chance h hl (by simpa using hn) T0 near (j := j) (by simpa using hj)
  rw [List.getElem_map, show (((g.map (·.1)).length : ℕ) : ℝ) = g.length by rw [List.length_map]] at ch
  have hm := List.getElem_mem hj
  have s0 : 0 ≤ g[j].1 / (g.map (·.1)).sum := div_nonneg (hpe _ hm) T0.le
  have s1 : g[j].1 / (g.map (·.1)).sum ≤ 1 := by
    rw [div_le_one T0]
    exact List.single_le_sum hl _ (List.mem_map_of_mem hm)
  have main : ∀ b : Bool, |chance (fun w => transition fl (normalizeBranch fl g) w = some (j, b))
      - g[j].1 / (g.map (·.1)).sum * (if b then g[j].2 / (1 + g[j].2) else 1 / (1 + g[j].2))| ≤ (2 * g.length + 6) / 2 ^ 50 := by
    intro b
    rw [transition_chance, e1, e2]
    refine (product_near ch (conversion_chance h (hic _ hm).1 (hic _ hm).2 b) (chance_nonneg _) (chance_le_one _) s0 s1).trans ?_
    norm_num
    linarith
  exact ⟨by simpa using main false, by simpa using main true⟩

/-- The normalised branches of a level without intensities. -/
theorem equal_form (h : Double fl) {g : List (ℝ × ℝ)} (hpe : ∀ x ∈ g, x.1 = 0) (g0 : 0 < g.length) :
    normalizeBranch fl g = g.map fun _ => (fl (1 / g.length), 0) := by
  have z : ∀ l : List ℝ, (∀ p ∈ l, p = 0) → ∀ k, runSum fl 0 l k = 0 := by
    intro l hl k
    unfold runSum
    have hl : ∀ p ∈ l.take k, p = 0 := fun p hp => hl p (List.mem_of_mem_take hp)
    generalize l.take k = t at *
    induction t with
    | nil => rfl
    | cons p t ih =>
      rw [List.foldl_cons, hl p (by simp), add_zero, h.fix isFloat_zero]
      exact ih fun q hq => hl q (by simp [hq])
  unfold normalizeBranch
  rw [foldl_runSum, z _ (by simpa using fun a b hab => hpe (a, b) hab), if_pos rfl]
  split_ifs with e
  · rfl
  · obtain ⟨x, rfl⟩ := List.length_eq_one_iff.1 (show g.length = 1 by omega)
    simp [h.fix one_double]

theorem equal_near (h : Double fl) {n : Nat} (hn : n ≤ 2 ^ 20) (g0 : 0 < n) :
    ∀ p ∈ List.replicate n (1 : ℝ), 0 ≤ fl (1 / n) ∧
      |fl (1 / n) - p / (List.replicate n (1 : ℝ)).sum| ≤ p / (List.replicate n (1 : ℝ)).sum * (((List.replicate n (1 : ℝ)).length + 2) / 2 ^ 52) + 1 / 2 ^ 90 := by
  have n1 : (1 : ℝ) ≤ n := by exact_mod_cast g0
  have n2 : (n : ℝ) ≤ 2 ^ 20 := by exact_mod_cast hn
  have sum : (List.replicate n (1 : ℝ)).sum = n := by simp
  have q0 : (0 : ℝ) < 1 / n := by positivity
  have rel := rel53 h (x := 1 / n) (by
    rw [le_div_iff₀ (by linarith), zpow_neg, inv_mul_le_iff₀ (by positivity), mul_one]
    exact n2.trans (by rw [← zpow_natCast]; exact zpow_le_zpow_right₀ (by norm_num) (by norm_num)))
  intro p hp
  rw [List.eq_of_mem_replicate hp, sum, List.length_replicate]
  refine ⟨h.nonneg q0.le, rel.trans ?_⟩
  have : (1 : ℝ) / n * (1 / 2 ^ 53) ≤ 1 / n * ((n + 2) / 2 ^ 52) := by
    refine mul_le_mul_of_nonneg_left ?_ q0.le
    generalize (n : ℝ) = N at *
    clear * - n1
    norm_num at *; linarith
  have : (0 : ℝ) ≤ 1 / 2 ^ 90 := by positivity
  linarith

/-- **C151.** A level with intensities that are all zero in the file emits each of its `n` photons with the chance `1/n`, and never an
electron. -/
theorem C151_equal (h : Double fl) {g : List (ℝ × ℝ)} (hn : g.length ≤ 2 ^ 20) (hpe : ∀ x ∈ g, x.1 = 0) {j : Nat} (hj : j < g.length) :
    |chance (fun w => transition fl (normalizeBranch fl g) w = some (j, false)) - 1 / g.length| ≤ (2 * g.length + 6) / 2 ^ 50 ∧
    chance (fun w => transition fl (normalizeBranch fl g) w = some (j, true)) = 0 := by
  have g0 : 0 < g.length := by omega
  have n1 : (1 : ℝ) ≤ g.length := by exact_mod_cast g0
  have form := equal_form h hpe g0
  have e1 : (normalizeBranch fl g).map (·.1) = (List.replicate g.length (1 : ℝ)).map fun _ => fl (1 / g.length) := by
    rw [form, List.map_map, List.map_replicate]; exact List.map_const'
  have e2 : ((normalizeBranch fl g).map (·.2)).getD j 0 = 0 := by
    rw [form, List.map_map, List.getD_eq_getElem?_getD, List.getElem?_map, List.getElem?_eq_getElem hj]; rfl
  have sum : (List.replicate g.length (1 : ℝ)).sum = g.length := by simp
  have ch := choice_chance h (l := List.replicate g.length (1 : ℝ)) (by simp) (by simpa using hn) (f := fun _ => fl (1 / g.length)) (by rw [sum]; linarith)
    (equal_near h hn g0) (j := j) (by simpa using hj)
  rw [List.getElem_replicate, sum, show (((List.replicate g.length (1 : ℝ)).length : ℕ) : ℝ) = g.length by rw [List.length_replicate]] at ch
  have gr : gratio fl 0 = 1 := by
    unfold gratio
    rw [add_zero, h.fix one_double, _root_.div_one, h.fix one_double]
  have never : ∀ w, ¬ gratio fl 0 < rng fl w := fun w => by rw [gr]; exact not_lt.2 (rng_range h w).2.2.le
  constructor
  · rw [transition_chance, e1, e2]
    simp only [never, decide_false]
    rw [chance_true, mul_one]
    refine ch.trans ?_
    generalize (g.length : ℝ) = N at *
    norm_num
    linarith
  · rw [transition_chance, e2]
    simp only [never, decide_false, Bool.false_eq_true]
    rw [chance_false, mul_zero]

/-- **C151.** A level whose intensities are not all zero is left at the first attempt, but for a chance of `(3n+7)/2^50`. -/
theorem C151_left (h : Double fl) {g : List (ℝ × ℝ)} (hn : g.length ≤ 2 ^ 20) (hpe : ∀ x ∈ g, 0 ≤ x.1)
    (lo : 1 / 2 ^ 300 ≤ (g.map (·.1)).sum) (hi : (g.map (·.1)).sum ≤ 2 ^ 100) :
    chance (fun w => transition fl (normalizeBranch fl g) w = none) ≤ (3 * g.length + 7) / 2 ^ 50 := by
  have hl : ∀ p ∈ g.map (·.1), 0 ≤ p := by simpa using fun a b hab => hpe (a, b) hab
  have T0 : 0 < (g.map (·.1)).sum := lt_of_lt_of_le (by positivity) lo
  obtain ⟨ne, near⟩ := normalised_near h hl (by simpa using hn) hi lo
  have n2 : (g.length : ℝ) ≤ 2 ^ 20 := by exact_mod_cast hn
  have n0 : (0 : ℝ) ≤ g.length := Nat.cast_nonneg _
  have e1 : (normalizeBranch fl g).map (·.1) = (g.map (·.1)).map fun p => fl (p * fl (1 / runSum fl 0 (g.map (·.1)) (g.map (·.1)).length)) := by
    unfold normalizeBranch
    rw [foldl_runSum, if_neg ne, List.map_map, List.map_map]; rfl
  have tot := shares_sum _ fun p hp => (near p hp).2
  rw [div_self T0.ne', one_mul] at tot
  set l := (g.map (·.1)).map fun p => fl (p * fl (1 / runSum fl 0 (g.map (·.1)) (g.map (·.1)).length)) with hld
  have len : l.length = g.length := by simp [hld]
  have len' : (g.map (·.1)).length = g.length := by simp
  rw [len'] at tot
  obtain ⟨t1, t2⟩ := abs_le.1 tot
  have stay := C126_chance_none h (l := l) (fun q hq => by
      obtain ⟨p, hp, rfl⟩ := List.mem_map.1 hq
      exact (near p hp).1)
    (by rw [len]; exact hn.trans (by norm_num)) (by
      generalize (g.length : ℝ) = N at *
      clear * - t2 n2
      norm_num at *; linarith)
  rw [len] at stay
  have c : chance (fun w => transition fl (normalizeBranch fl g) w = none) = chance (fun w => pickSum fl 0 (rng fl w) l = none) := by
    have a := chance_and (E := fun w : Pair => pickSum fl 0 (rng fl w) l = none) (F := fun _ : Pair => True)
    rw [chance_true, mul_one] at a
    rw [← a]
    refine chance_congr fun w => ?_
    unfold transition
    rw [e1]
    cases e : pickSum fl 0 (rng fl w.1) l <;> simp
  rw [c]
  have m : max 0 (1 - l.sum) ≤ (g.length + 3) / 2 ^ 52 := by
    refine max_le (by positivity) ?_
    generalize (g.length : ℝ) = N at *
    clear * - t1 n2
    norm_num at *; linarith
  have := (abs_le.1 stay).2
  generalize max 0 (1 - l.sum) = x at *
  generalize (g.length : ℝ) = N at *
  clear * - this m n0
  norm_num at *; linarith

/-- A level with two transitions of intensities 3 and 1, the second converted once for each photon: an eighth of the decays emit the second
photon. -/
example (h : Double fl) : |chance (fun w => transition fl (normalizeBranch fl [(3, 0), (1, 1)]) w = some (1, false)) - 1 / 8| ≤ 10 / 2 ^ 50 := by
  have := (C151_photon h (g := [(3, 0), (1, 1)]) (by norm_num) (by simp) (by norm_num)
    (by
      have : (1 : ℝ) / 2 ^ 300 ≤ 1 := by rw [div_le_one (by positivity)]; exact one_le_pow₀ (by norm_num)
      norm_num at *; linarith) (by norm_num) (j := 1) (by norm_num)).1
  norm_num at *
  exact this

example (h : Double fl) : chance (fun w => transition fl (normalizeBranch fl [(3, 0), (1, 1)]) w = none) ≤ 13 / 2 ^ 50 := by
  have := C151_left h (g := [(3, 0), (1, 1)]) (by norm_num) (by simp)
    (by
      have : (1 : ℝ) / 2 ^ 300 ≤ 1 := by rw [div_le_one (by positivity)]; exact one_le_pow₀ (by norm_num)
      norm_num at *; linarith) (by norm_num)
  norm_num at *
  exact this

/-- Three transitions without intensities. -/
example (h : Double fl) : |chance (fun w => transition fl (normalizeBranch fl [(0, 5), (0, 0), (0, 1)]) w = some (0, false)) - 1 / 3| ≤ 12 / 2 ^ 50 := by
  have := (C151_equal h (g := [(0, 5), (0, 0), (0, 1)]) (by norm_num) (by simp) (j := 0) (by norm_num)).1
  norm_num at *
  exact this

end CGMF.Props

import Mathlib.Data.BitVec
import Mathlib.Data.Set.Card
import Mathlib.Topology.Algebra.Order.LiminfLimsup
import Mathlib.Analysis.SpecificLimits.Basic
import Verif.Model.FloatPick
import Verif.Props.FloatIndex
import Verif.Props.Twister
import Verif.Props.FloatSummary

/-!
# C149: the law of the drawn entries

The chance of an event is the share of the outputs of the engine for which it happens, all outputs taken as equally likely.
-/

namespace CGMF.Props

open CGMF CGMF.Fp CGMF.Twist CGMF.Pick

variable {fl : ℝ → ℝ}

/-- The share of the cases in which `E` holds. -/
noncomputable def chance {α : Type} (E : α → Prop) : ℝ := ({a | E a}.ncard : ℝ) / Nat.card α

/-! ## Counting -/

/-- The number the two words write. -/
def value (w : Pair) : Nat := w.1.toNat + w.2.toNat * 2 ^ 32

theorem value_lt (w : Pair) : value w < 2 ^ 64 := by
  have a := w.1.isLt
  have b := w.2.isLt
  unfold value
  omega

theorem value_inj : Function.Injective value := by
  rintro ⟨a, b⟩ ⟨c, d⟩ h
  unfold value at h
  simp only at h
  have h1 := a.isLt
  have h2 := c.isLt
  have e1 : b.toNat = d.toNat := by omega
  have e2 : a.toNat = c.toNat := by omega
  rw [BitVec.eq_of_toNat_eq e1, BitVec.eq_of_toNat_eq e2]

theorem value_surj {m : Nat} (h : m < 2 ^ 64) : ∃ w, value w = m := by
  refine ⟨(BitVec.ofNat 32 m, BitVec.ofNat 32 (m / 2 ^ 32)), ?_⟩
  unfold value
  simp only [BitVec.toNat_ofNat]
  omega

instance : Finite Pair := by
  have : Finite (Fin (2 ^ 64)) := inferInstance
  exact Finite.of_injective (fun w : Pair => (⟨value w, value_lt w⟩ : Fin (2 ^ 64))) fun a b h => value_inj (by simpa using h)

theorem card_pair : Nat.card Pair = 2 ^ 64 := by
  have : Function.Bijective (fun w : Pair => (⟨value w, value_lt w⟩ : Fin (2 ^ 64))) :=
    ⟨fun a b h => value_inj (by simpa using h), fun m => by
      obtain ⟨w, hw⟩ := value_surj m.isLt
      exact ⟨w, Fin.ext hw⟩⟩
  rw [Nat.card_eq_of_bijective _ this, Nat.card_fin]

/-- Events between two intervals. -/
theorem chance_interval {E : Pair → Prop} {a b ε : ℝ} (ha : 0 ≤ a) (hab : a ≤ b) (hb : b ≤ 1) (hε : 0 ≤ ε)
    (outer : ∀ w, E w → a - ε ≤ (value w : ℝ) / 2 ^ 64 ∧ (value w : ℝ) / 2 ^ 64 ≤ b + ε)
    (inner : ∀ w, a + ε < (value w : ℝ) / 2 ^ 64 → (value w : ℝ) / 2 ^ 64 < b - ε → E w) :
    |chance E - (b - a)| ≤ 2 * ε + 1 / 2 ^ 64 := by
  unfold chance
  rw [card_pair]
  set S : Set Pair := {w | E w} with hS
  have M0 : (0 : ℝ) < 2 ^ 64 := by positivity
  have up : (S.ncard : ℝ) ≤ (b - a + 2 * ε) * 2 ^ 64 + 1 := by
    have h1 : S.ncard ≤ ((Finset.Icc ⌈(a - ε) * 2 ^ 64⌉ ⌊(b + ε) * 2 ^ 64⌋ : Finset Int) : Set Int).ncard := by
      refine Set.ncard_le_ncard_of_injOn (fun w => (value w : Int)) ?_ ?_ (Finset.finite_toSet _)
      · intro w hw
        obtain ⟨o1, o2⟩ := outer w hw
        rw [Finset.coe_Icc, Set.mem_Icc, Int.ceil_le, Int.le_floor]
        rw [le_div_iff₀ M0] at o1
        rw [div_le_iff₀ M0] at o2
        exact ⟨by exact_mod_cast o1, by exact_mod_cast o2⟩
      · intro w _ w' _ h
        exact value_inj (Int.ofNat.inj h)
    rw [Set.ncard_coe_finset, Int.card_Icc] at h1
    have h2 : (S.ncard : ℝ) ≤ ((⌊(b + ε) * 2 ^ 64⌋ + 1 - ⌈(a - ε) * 2 ^ 64⌉).toNat : ℝ) := by exact_mod_cast h1
    refine h2.trans ?_
    have f := Int.floor_le ((b + ε) * 2 ^ 64)
    have c := Int.le_ceil ((a - ε) * 2 ^ 64)
    rcases le_total 0 (⌊(b + ε) * 2 ^ 64⌋ + 1 - ⌈(a - ε) * 2 ^ 64⌉) with h0 | h0
    · have e : ((⌊(b + ε) * 2 ^ 64⌋ + 1 - ⌈(a - ε) * 2 ^ 64⌉).toNat : ℝ)
          = ((⌊(b + ε) * 2 ^ 64⌋ + 1 - ⌈(a - ε) * 2 ^ 64⌉ : Int) : ℝ) := by
        have := Int.toNat_of_nonneg h0
        exact_mod_cast this
      rw [e]
      push_cast
      linarith
    · rw [Int.toNat_of_nonpos h0, Nat.cast_zero]
      have : 0 ≤ (b - a + 2 * ε) * 2 ^ 64 := mul_nonneg (by linarith) M0.le
      linarith
  have low : (b - a - 2 * ε) * 2 ^ 64 - 1 ≤ (S.ncard : ℝ) := by
    have h1 : ((Finset.Ioo ⌊(a + ε) * 2 ^ 64⌋ ⌈(b - ε) * 2 ^ 64⌉ : Finset Int) : Set Int).ncard ≤ ((fun w => (value w : Int)) '' S).ncard := by
      refine Set.ncard_le_ncard ?_ (Set.toFinite _)
      intro m hm
      rw [Finset.coe_Ioo, Set.mem_Ioo, Int.floor_lt, Int.lt_ceil] at hm
      have m0 : (0 : ℝ) ≤ m := le_trans (mul_nonneg (by linarith) M0.le) hm.1.le
      have m0' : 0 ≤ m := by exact_mod_cast m0
      have m1 : (m : ℝ) < 2 ^ 64 := by
        refine lt_of_lt_of_le hm.2 ?_
        nlinarith
      have m1' : m.toNat < 2 ^ 64 := by
        have : m < 2 ^ 64 := by exact_mod_cast m1
        omega
      obtain ⟨w, hw⟩ := value_surj m1'
      have e : ((value w : Nat) : ℝ) = m := by
        rw [hw]
        have := Int.toNat_of_nonneg m0'
        exact_mod_cast this
      refine ⟨w, inner w ?_ ?_, ?_⟩
      · rw [e, lt_div_iff₀ M0]; exact hm.1
      · rw [e, div_lt_iff₀ M0]; exact hm.2
      · simp only [hw]; omega
    rw [Set.ncard_image_of_injective (f := fun w : Pair => (value w : Int)) _ (fun w w' h => value_inj (Int.ofNat.inj h)), Set.ncard_coe_finset, Int.card_Ioo] at h1
    have h2 : ((⌈(b - ε) * 2 ^ 64⌉ - ⌊(a + ε) * 2 ^ 64⌋ - 1 : Int) : ℝ) ≤ (S.ncard : ℝ) := by
      have : ⌈(b - ε) * 2 ^ 64⌉ - ⌊(a + ε) * 2 ^ 64⌋ - 1 ≤ (S.ncard : Int) := by omega
      exact_mod_cast this
    refine le_trans ?_ h2
    have f := Int.floor_le ((a + ε) * 2 ^ 64)
    have c := Int.le_ceil ((b - ε) * 2 ^ 64)
    push_cast
    linarith
  rw [abs_le, Nat.cast_pow, Nat.cast_ofNat]
  constructor
  · rw [le_sub_iff_add_le, le_div_iff₀ M0]
    have : (-(2 * ε + 1 / 2 ^ 64) + (b - a)) * 2 ^ 64 = (b - a - 2 * ε) * 2 ^ 64 - 1 := by ring
    linarith
  · rw [sub_le_iff_le_add, div_le_iff₀ M0]
    have : (2 * ε + 1 / 2 ^ 64 + (b - a)) * 2 ^ 64 = (b - a + 2 * ε) * 2 ^ 64 + 1 := by ring
    linarith

/-! ## The two draws -/

theorem rng_near (h : Double fl) (w : Pair) : |rng fl w - (value w : ℝ) / 2 ^ 64| ≤ 1 / 2 ^ 53 := by
  have := C130_near h w.1 w.2
  unfold rng value
  rw [Nat.cast_add, Nat.cast_mul, Nat.cast_pow, Nat.cast_ofNat]
  exact this

theorem rng_range (h : Double fl) (w : Pair) : IsDouble (rng fl w) ∧ 0 ≤ rng fl w ∧ rng fl w < 1 := C130_range h w.1 w.2

theorem tiny : (2 : ℝ) ^ (-1074 : Int) / 2 ≤ 1 / 2 ^ 53 / 2 ^ 400 / 8 := by
  rw [zpow_neg, div_div, div_div]
  have : (2 : ℝ) ^ (53 + 400 + 3) ≤ 2 ^ 1074 := pow_le_pow_right₀ (by norm_num) (by norm_num)
  rw [pow_add, pow_add] at this
  rw [div_le_div_iff₀ (by norm_num) (by positivity)]
  have e : ((2 : ℝ) ^ (1074 : Int))⁻¹ * 2 ^ 1074 = 1 := by
    rw [← zpow_natCast]; exact inv_mul_cancel₀ (by positivity)
  have p : (0 : ℝ) < ((2 : ℝ) ^ (1074 : Int))⁻¹ := by positivity
  have := mul_le_mul_of_nonneg_left this p.le
  rw [e] at this
  have e3 : (2 : ℝ) ^ 53 * 2 ^ 400 * 2 ^ 3 = 2 ^ 53 * (2 ^ 400 * 8) := by ring
  rw [e3] at this
  exact this.trans (by norm_num)

/-- **C149.** The index: every one of the `n` places has the chance `1/n`. -/
theorem C149_index (h : Double fl) {lo n j : Int} (hn : 1 ≤ n) (hn2 : n ≤ 2 ^ 31) (hlo : |lo| ≤ n) (h0 : 0 ≤ j) (h1 : j < n) :
    |chance (fun w => drawFrom fl lo n (rng fl w) = lo + j) - 1 / n| ≤ 11 / 2 ^ 53 := by
  have n1 : (1 : ℝ) ≤ n := by exact_mod_cast hn
  have n0 : (0 : ℝ) < n := by linarith
  have j0 : (0 : ℝ) ≤ j := by exact_mod_cast h0
  have j1 : (j : ℝ) + 1 ≤ n := by exact_mod_cast h1
  have l1 : |(lo : ℝ)| ≤ n := by exact_mod_cast hlo
  -- the computed index before it is cut
  have near : ∀ w, |fl (fl (rng fl w * n) + lo) - ((value w : ℝ) / 2 ^ 64 * n + lo)| ≤ (5 / 2 ^ 53 : ℝ) * n := by
    intro w
    obtain ⟨rd, r0, r1⟩ := rng_range h w
    have e1 := abs_le.1 (rng_near h w)
    have p0 : 0 ≤ fl (rng fl w * n) := h.nonneg (mul_nonneg r0 n0.le)
    have p1 : fl (rng fl w * n) ≤ n := h.le_of (int_double (k := 31) (by norm_num) (by omega) hn2) (by nlinarith)
    have a1 := h.any (x := rng fl w * n) (by norm_num)
    have a2 := h.any (x := fl (rng fl w * n) + lo) (by norm_num)
    have t := tiny
    have t' : (1 : ℝ) / 2 ^ 53 / 2 ^ 400 / 8 ≤ 1 / 2 ^ 53 / 8 := by
      have : (1 : ℝ) / 2 ^ 53 / 2 ^ 400 ≤ 1 / 2 ^ 53 := div_le_self (by positivity) (one_le_pow₀ (by norm_num))
      linarith
    rw [abs_of_nonneg (mul_nonneg r0 n0.le)] at a1
    have b1 : rng fl w * n ≤ n := by nlinarith
    have b2 : |fl (rng fl w * n) + lo| ≤ 2 * n := (abs_add_le _ _).trans (by rw [abs_of_nonneg p0]; linarith)
    have c1 : rng fl w * n / 2 ^ 53 ≤ n / 2 ^ 53 := div_le_div_of_nonneg_right b1 (by positivity)
    have c2 : |fl (rng fl w * n) + lo| / 2 ^ 53 ≤ 2 * n / 2 ^ 53 := div_le_div_of_nonneg_right b2 (by positivity)
    have a1 := abs_le.1 a1
    have a2 := abs_le.1 a2
    have d1 : (rng fl w - (value w : ℝ) / 2 ^ 64) * n ≤ 1 / 2 ^ 53 * n := mul_le_mul_of_nonneg_right e1.2 n0.le
    have d2 : -(1 / 2 ^ 53) * n ≤ (rng fl w - (value w : ℝ) / 2 ^ 64) * n := mul_le_mul_of_nonneg_right e1.1 n0.le
    rw [abs_le]
    constructor
    · linarith [a1.1, a2.1]
    · linarith [a1.2, a2.2]
  have key := chance_interval (E := fun w => drawFrom fl lo n (rng fl w) = lo + j) (a := j / n) (b := (j + 1) / n) (ε := 5 / 2 ^ 53)
    (by positivity) (by gcongr; linarith) (by rw [div_le_one n0]; exact j1) (by positivity) ?_ ?_
  · have e : ((j : ℝ) + 1) / n - j / n = 1 / n := by rw [← sub_div]; ring
    rw [e] at key
    refine key.trans ?_
    norm_num
  · intro w hw
    unfold drawFrom at hw
    rw [Int.floor_eq_iff] at hw
    push_cast at hw
    have a := abs_le.1 (near w)
    constructor
    · rw [sub_le_iff_le_add, div_le_iff₀ n0]; linarith [a.1, a.2, hw.1]
    · rw [← sub_le_iff_le_add, le_div_iff₀ n0]; linarith [a.1, a.2, hw.2]
  · intro w w1 w2
    have a := abs_le.1 (near w)
    unfold drawFrom
    rw [Int.floor_eq_iff]
    push_cast
    rw [← lt_sub_iff_add_lt, div_lt_iff₀ n0] at w1
    rw [lt_sub_iff_add_lt, lt_div_iff₀ n0] at w2
    constructor
    · linarith [a.1, a.2]
    · linarith [a.1, a.2]

/-- **C149.** The decision: an entry `p` is accepted with the chance `p/m`. -/
theorem C149_accept (h : Double fl) {m p : ℝ} (hm : 1 / 2 ^ 400 ≤ m) (p0 : 0 ≤ p) (pm : p ≤ m) :
    |chance (fun w => ¬ p < fl (rng fl w * m)) - p / m| ≤ 7 / 2 ^ 53 := by
  have m0 : 0 < m := lt_of_lt_of_le (by positivity) hm
  have near : ∀ w, |fl (rng fl w * m) - (value w : ℝ) / 2 ^ 64 * m| ≤ 3 / 2 ^ 53 * m := by
    intro w
    obtain ⟨rd, r0, r1⟩ := rng_range h w
    have e1 := abs_le.1 (rng_near h w)
    have a1 := h.any (x := rng fl w * m) (by norm_num)
    have t := tiny
    have t' : (1 : ℝ) / 2 ^ 53 / 2 ^ 400 / 8 ≤ 1 / 2 ^ 53 * m := by
      have : (1 : ℝ) / 2 ^ 53 * (1 / 2 ^ 400) ≤ 1 / 2 ^ 53 * m := mul_le_mul_of_nonneg_left hm (by positivity)
      have e : (1 : ℝ) / 2 ^ 53 / 2 ^ 400 = 1 / 2 ^ 53 * (1 / 2 ^ 400) := by ring
      rw [e]
      have : (0 : ℝ) ≤ 1 / 2 ^ 53 * (1 / 2 ^ 400) := by positivity
      linarith
    rw [abs_of_nonneg (mul_nonneg r0 m0.le)] at a1
    have b1 : rng fl w * m ≤ m := by nlinarith
    have c1 : rng fl w * m / 2 ^ 53 ≤ m / 2 ^ 53 := div_le_div_of_nonneg_right b1 (by positivity)
    have a1 := abs_le.1 a1
    have d1 : (rng fl w - (value w : ℝ) / 2 ^ 64) * m ≤ 1 / 2 ^ 53 * m := mul_le_mul_of_nonneg_right e1.2 m0.le
    have d2 : -(1 / 2 ^ 53) * m ≤ (rng fl w - (value w : ℝ) / 2 ^ 64) * m := mul_le_mul_of_nonneg_right e1.1 m0.le
    rw [abs_le]
    constructor
    · linarith [a1.1]
    · linarith [a1.2]
  have key := chance_interval (E := fun w => ¬ p < fl (rng fl w * m)) (a := 0) (b := p / m) (ε := 3 / 2 ^ 53)
    le_rfl (by positivity) (by rw [div_le_one m0]; exact pm) (by positivity) ?_ ?_
  · rw [sub_zero] at key
    refine key.trans ?_
    norm_num
  · intro w hw
    have a := abs_le.1 (near w)
    have hw := not_lt.1 hw
    constructor
    · have : (0 : ℝ) ≤ (value w : ℝ) / 2 ^ 64 := by positivity
      have : (0 : ℝ) ≤ 3 / 2 ^ 53 := by positivity
      linarith
    · rw [← sub_le_iff_le_add, le_div_iff₀ m0]; linarith [a.1]
  · intro w _ w2
    have a := abs_le.1 (near w)
    rw [lt_sub_iff_add_lt, lt_div_iff₀ m0] at w2
    rw [not_lt]
    linarith [a.2]

/-! ## The loop -/

theorem chance_nonneg {α : Type} (E : α → Prop) : 0 ≤ chance E := by unfold chance; positivity

theorem chance_and {α β : Type} (E : α → Prop) (F : β → Prop) : chance (fun w : α × β => E w.1 ∧ F w.2) = chance E * chance F := by
  unfold chance
  have : {w : α × β | E w.1 ∧ F w.2} = {a | E a} ×ˢ {b | F b} := rfl
  rw [this, Set.ncard_prod, Nat.card_prod, Nat.cast_mul, Nat.cast_mul, mul_div_mul_comm]

theorem chance_or {α : Type} [Finite α] {E F : α → Prop} (d : ∀ a, E a → ¬ F a) : chance (fun a => E a ∨ F a) = chance E + chance F := by
  unfold chance
  have : {a | E a ∨ F a} = {a | E a} ∪ {a | F a} := rfl
  rw [this, Set.ncard_union_eq (s := {a | E a}) (t := {a | F a}) (Set.disjoint_left.2 d) (Set.toFinite _) (Set.toFinite _), Nat.cast_add, add_div]

theorem chance_equiv {α β : Type} (f : α ≃ β) (E : β → Prop) : chance (fun a => E (f a)) = chance E := by
  unfold chance
  rw [Nat.card_congr f]
  congr 2
  have : {b | E b} = f '' {a | E (f a)} := by
    ext b
    constructor
    · intro hb
      exact ⟨f.symm b, by simpa using hb, by simp⟩
    · rintro ⟨a, ha, rfl⟩
      exact ha
  rw [this, Set.ncard_image_of_injective _ f.injective]

theorem chance_true {α : Type} [Finite α] [Nonempty α] : chance (fun _ : α => True) = 1 := by
  unfold chance
  rw [show {a : α | True} = Set.univ from rfl, Set.ncard_univ, div_self]
  exact_mod_cast Nat.card_pos.ne'

theorem chance_false {α : Type} : chance (fun _ : α => False) = 0 := by
  unfold chance
  simp

theorem chance_congr {α : Type} {E F : α → Prop} (h : ∀ a, E a ↔ F a) : chance E = chance F := by
  have : E = F := funext fun a => propext (h a)
  rw [this]

theorem chance_sum {α ι : Type} [Finite α] [DecidableEq ι] (s : Finset ι) (f : α → Option ι) :
    chance (fun a => ∃ i ∈ s, f a = some i) = ∑ i ∈ s, chance fun a => f a = some i := by
  induction s using Finset.induction_on with
  | empty => simp [chance]
  | insert i s hi ih =>
    rw [Finset.sum_insert hi, ← ih, ← chance_or]
    · refine chance_congr fun a => ?_
      simp
    · rintro a ha ⟨k, hk, e⟩
      rw [ha] at e
      cases e
      exact hi hk

/-- The attempts after the first. -/
theorem chance_succ {Q : Type} [Finite Q] (k : Nat) (E : Q → Prop) (F : List Q → Prop) :
    chance (fun u : Fin (k + 1) → Q => E (u 0) ∧ F (List.ofFn fun i : Fin k => u i.succ))
      = chance E * chance fun u : Fin k → Q => F (List.ofFn u) := by
  rw [← chance_and]
  exact chance_equiv (Fin.consEquiv fun _ => Q).symm fun w : Q × (Fin k → Q) => E w.1 ∧ F (List.ofFn w.2)

variable {lo n : Int} {table : Int → ℝ} {m : ℝ}

theorem loop_none (k : Nat) :
    chance (fun u : Fin k → Pair × Pair => loop fl lo n table m (List.ofFn u) = none)
      = (chance fun w => attempt fl lo n table m w = none) ^ k := by
  induction k with
  | zero =>
    rw [pow_zero]
    refine Eq.trans (chance_congr fun u => ?_) chance_true
    simp [loop]
  | succ k ih =>
    rw [pow_succ', ← ih, ← chance_succ k (fun w => attempt fl lo n table m w = none) (fun l => loop fl lo n table m l = none)]
    refine chance_congr fun u => ?_
    rw [List.ofFn_succ, loop]
    cases e : attempt fl lo n table m (u 0) <;> simp

theorem loop_some (k : Nat) (i : Int) :
    chance (fun u : Fin k → Pair × Pair => loop fl lo n table m (List.ofFn u) = some i)
      = (∑ r ∈ Finset.range k, (chance fun w => attempt fl lo n table m w = none) ^ r) * chance fun w => attempt fl lo n table m w = some i := by
  induction k with
  | zero =>
    rw [Finset.range_zero, Finset.sum_empty, zero_mul]
    refine Eq.trans (chance_congr fun u => ?_) chance_false
    simp [loop]
  | succ k ih =>
    have e : chance (fun u : Fin (k + 1) → Pair × Pair => loop fl lo n table m (List.ofFn u) = some i)
        = chance (fun u : Fin (k + 1) → Pair × Pair => attempt fl lo n table m (u 0) = some i ∧ (fun _ : List (Pair × Pair) => True) (List.ofFn fun i : Fin k => u i.succ))
          + chance (fun u : Fin (k + 1) → Pair × Pair => attempt fl lo n table m (u 0) = none ∧
              (fun l => loop fl lo n table m l = some i) (List.ofFn fun i : Fin k => u i.succ)) := by
      rw [← chance_or]
      · refine chance_congr fun u => ?_
        rw [List.ofFn_succ, loop]
        cases e : attempt fl lo n table m (u 0) <;> simp
      · rintro u ⟨a, _⟩ ⟨b, _⟩
        rw [a] at b
        cases b
    rw [e, chance_succ k (fun w => attempt fl lo n table m w = some i) (fun _ => True),
      chance_succ k (fun w => attempt fl lo n table m w = none) (fun l => loop fl lo n table m l = some i), ih, chance_true,
      Finset.sum_range_succ' (fun r => (chance fun w => attempt fl lo n table m w = none) ^ r) k, pow_zero]
    simp only [pow_succ']
    rw [← Finset.mul_sum]
    ring

/-- **C149.** One turn of the loop: the index `lo + j` is accepted with the chance `table[lo+j] / (n m)`. -/
theorem C149_attempt (h : Double fl) (hn : 1 ≤ n) (hn2 : n ≤ 2 ^ 31) (hlo : |lo| ≤ n) (hm : 1 / 2 ^ 400 ≤ m) {j : Int} (h0 : 0 ≤ j) (h1 : j < n)
    (p0 : 0 ≤ table (lo + j)) (pm : table (lo + j) ≤ m) :
    |chance (fun w => attempt fl lo n table m w = some (lo + j)) - table (lo + j) / (n * m)| ≤ 18 / 2 ^ 53 := by
  have n1 : (1 : ℝ) ≤ n := by exact_mod_cast hn
  have n0 : (0 : ℝ) < n := by linarith
  have m0 : 0 < m := lt_of_lt_of_le (by positivity) hm
  have e : chance (fun w => attempt fl lo n table m w = some (lo + j))
      = chance (fun w => drawFrom fl lo n (rng fl w) = lo + j) * chance (fun w => ¬ table (lo + j) < fl (rng fl w * m)) := by
    rw [← chance_and]
    refine chance_congr fun w => ?_
    unfold attempt
    by_cases hj : drawFrom fl lo n (rng fl w.1) = lo + j
    · rw [hj]
      split_ifs with hc
      · simp [hc]
      · simp [hc]
    · split_ifs with hc
      · simp [hj]
      · simp [hj]
  rw [e]
  have a := abs_le.1 (C149_index h hn hn2 hlo h0 h1)
  have b := abs_le.1 (C149_accept h hm p0 pm)
  set x := chance (fun w => drawFrom fl lo n (rng fl w) = lo + j)
  set y := chance (fun w => ¬ table (lo + j) < fl (rng fl w * m)) with hy
  set q := table (lo + j) / m with hq
  have q0 : 0 ≤ q := div_nonneg p0 m0.le
  have q1 : q ≤ 1 := by rw [hq, div_le_one m0]; exact pm
  have y0 : 0 ≤ y := chance_nonneg _
  have y1 : y ≤ 1 := by
    have := chance_or (E := fun w => table (lo + j) < fl (rng fl w * m)) (F := fun w => ¬ table (lo + j) < fl (rng fl w * m)) (fun a ha hb => hb ha)
    rw [chance_congr (F := fun _ => True) (fun a => iff_true_intro (em _)), chance_true] at this
    linarith [chance_nonneg fun w => table (lo + j) < fl (rng fl w * m)]
  have eq : table (lo + j) / (n * m) = 1 / n * q := by rw [hq]; field_simp
  have i0 : 0 < 1 / (n : ℝ) := by positivity
  have i1 : 1 / (n : ℝ) ≤ 1 := by rw [div_le_one n0]; exact n1
  rw [eq]
  have s : x * y - 1 / n * q = (x - 1 / n) * y + 1 / n * (y - q) := by ring
  rw [s]
  refine (abs_add_le _ _).trans ?_
  rw [abs_mul, abs_mul, abs_of_nonneg y0, abs_of_pos i0]
  have u1 : |x - 1 / n| * y ≤ 11 / 2 ^ 53 * 1 := mul_le_mul (abs_le.2 a) y1 y0 (by positivity)
  have u2 : 1 / (n : ℝ) * |y - q| ≤ 1 * (7 / 2 ^ 53) := mul_le_mul i1 (abs_le.2 b) (abs_nonneg _) zero_le_one
  norm_num at u1 u2 ⊢
  linarith

/-- The loop is left at a turn with the sum of the chances of the entries. -/
theorem attempt_none (h : Double fl)
    (hw : ∀ r, IsDouble r → 0 ≤ r → r < 1 → lo ≤ drawFrom fl lo n r ∧ drawFrom fl lo n r < lo + n) :
    chance (fun w => attempt fl lo n table m w = none) = 1 - ∑ i ∈ Finset.Ico lo (lo + n), chance fun w => attempt fl lo n table m w = some i := by
  rw [← chance_sum, eq_sub_iff_add_eq, ← chance_or]
  · rw [chance_congr (F := fun _ => True), chance_true]
    intro w
    refine iff_true_intro ?_
    unfold attempt
    split_ifs with hc
    · exact .inl rfl
    · refine .inr ⟨_, ?_, rfl⟩
      rw [Finset.mem_Ico]
      obtain ⟨a, b, c⟩ := rng_range h w.1
      exact hw _ a b c
  · rintro w a ⟨i, _, e⟩
    rw [a] at e
    cases e

/-- Quotients of nearby numbers. -/
theorem near_share {ι : Type} [DecidableEq ι] (W : Finset ι) {a s : ι → ℝ} {e : ℝ} {k : Nat} (hk : W.card = k) (he : 0 ≤ e) (hs : ∀ i ∈ W, 0 ≤ s i) (ha : ∀ i ∈ W, |a i - s i| ≤ e)
    (big : 2 * (k * e) ≤ ∑ i ∈ W, s i) (pos : 0 < ∑ i ∈ W, s i) {i : ι} (hi : i ∈ W) :
    (∑ i ∈ W, s i) / 2 ≤ ∑ i ∈ W, a i ∧ |a i / ∑ i ∈ W, a i - s i / ∑ i ∈ W, s i| ≤ 2 * (k + 1) * e / ∑ i ∈ W, s i := by
  set S := ∑ i ∈ W, s i with hS
  set A := ∑ i ∈ W, a i with hA
  have d : |A - S| ≤ k * e := by
    rw [hA, hS, ← Finset.sum_sub_distrib]
    refine (Finset.abs_sum_le_sum_abs _ _).trans ?_
    refine (Finset.sum_le_sum ha).trans ?_
    rw [Finset.sum_const, hk, nsmul_eq_mul]
  have d' := abs_le.1 d
  have A1 : S / 2 ≤ A := by linarith [d'.1]
  refine ⟨A1, ?_⟩
  have A0 : 0 < A := by linarith
  have si : s i ≤ S := Finset.single_le_sum hs hi
  have s0 := hs i hi
  have q : |a i * S - s i * A| ≤ (k + 1) * e * S := by
    have r : a i * S - s i * A = (a i - s i) * S - s i * (A - S) := by ring
    rw [r]
    refine (abs_sub _ _).trans ?_
    rw [abs_mul, abs_mul, abs_of_pos pos, abs_of_nonneg s0]
    have u1 : |a i - s i| * S ≤ e * S := mul_le_mul_of_nonneg_right (ha i hi) pos.le
    have u2 : s i * |A - S| ≤ S * (k * e) := mul_le_mul si d (abs_nonneg _) pos.le
    linarith
  rw [div_sub_div _ _ A0.ne' pos.ne', abs_div, abs_of_pos (mul_pos A0 pos), div_le_div_iff₀ (mul_pos A0 pos) pos]
  have k0 : (0 : ℝ) ≤ (k + 1) * e := by positivity
  rw [mul_comm A (s i)]
  calc |a i * S - s i * A| * S ≤ (k + 1) * e * S * S := mul_le_mul_of_nonneg_right q pos.le
    _ ≤ (k + 1) * e * (2 * A) * S := by
        refine mul_le_mul_of_nonneg_right (mul_le_mul_of_nonneg_left ?_ k0) pos.le
        linarith
    _ = _ := by ring

/-- **C149.** The loop: with growing number of turns the chance that entry `i` of the table is drawn tends to a number that is the share of the
entry in the table up to `n^2/2^45`, and the chance that nothing has been accepted falls like a power. -/
theorem C149_law (h : Double fl) (hn : 1 ≤ n) (hn2 : n ≤ 2 ^ 20) (hlo : |lo| ≤ n)
    (hw : ∀ r, IsDouble r → 0 ≤ r → r < 1 → lo ≤ drawFrom fl lo n r ∧ drawFrom fl lo n r < lo + n)
    (hm : 1 / 2 ^ 400 ≤ m) (ht : ∀ i, lo ≤ i → i < lo + n → 0 ≤ table i ∧ table i ≤ m) (hs : m ≤ 2 * ∑ i ∈ Finset.Ico lo (lo + n), table i)
    {i : Int} (h0 : lo ≤ i) (h1 : i < lo + n) :
    (∃ c, Filter.Tendsto (fun k => chance fun u : Fin k → Pair × Pair => loop fl lo n table m (List.ofFn u) = some i) Filter.atTop (nhds c) ∧
      |c - table i / ∑ i ∈ Finset.Ico lo (lo + n), table i| ≤ n ^ 2 / 2 ^ 45) ∧
    ∀ k, (chance fun u : Fin k → Pair × Pair => loop fl lo n table m (List.ofFn u) = none) ≤ (1 - 1 / (4 * n)) ^ k := by
  have n1 : (1 : ℝ) ≤ n := by exact_mod_cast hn
  have n2 : (n : ℝ) ≤ 2 ^ 20 := by exact_mod_cast hn2
  have n0 : (0 : ℝ) < n := by linarith
  have m0 : 0 < m := lt_of_lt_of_le (by positivity) hm
  set W := Finset.Ico lo (lo + n) with hW
  set P := ∑ i ∈ W, table i with hP
  have P0 : 0 < P := by linarith
  have iW : i ∈ W := Finset.mem_Ico.2 ⟨h0, h1⟩
  set s : Int → ℝ := fun i => table i / (n * m) with hsdef
  set a : Int → ℝ := fun i => chance fun w => attempt fl lo n table m w = some i with ha
  have sumS : ∑ i ∈ W, s i = P / (n * m) := by rw [hP, Finset.sum_div]
  have cW : W.card = n.toNat := by rw [hW, Int.card_Ico]; congr 1; ring
  have nn : ((n.toNat : Nat) : ℝ) = n := by
    have := Int.toNat_of_nonneg (show 0 ≤ n by omega)
    exact_mod_cast this
  have S1 : 1 / (2 * n) ≤ P / (n * m) := by
    rw [div_le_div_iff₀ (by positivity) (by positivity)]
    nlinarith
  have S0 : 0 < P / (n * m) := by positivity
  obtain ⟨key1, key2⟩ := near_share W (a := a) (s := s) (e := 18 / 2 ^ 53) cW (by positivity)
    (fun i hi => by
      obtain ⟨x, y⟩ := Finset.mem_Ico.1 hi
      exact div_nonneg (ht i x y).1 (by positivity))
    (fun i hi => by
      obtain ⟨x, y⟩ := Finset.mem_Ico.1 hi
      have := C149_attempt (table := table) h hn (by omega) hlo hm (j := i - lo) (by omega) (by omega) (by rw [add_sub_cancel]; exact (ht i x y).1)
        (by rw [add_sub_cancel]; exact (ht i x y).2)
      rw [add_sub_cancel] at this
      exact this)
    (by
      rw [sumS, nn]
      refine le_trans ?_ S1
      rw [le_div_iff₀ (by positivity)]
      have : (n : ℝ) * n ≤ 2 ^ 20 * 2 ^ 20 := mul_le_mul n2 n2 n0.le (by positivity)
      norm_num at this ⊢
      linarith)
    (by rw [sumS]; exact S0) iW
  rw [sumS] at key1 key2
  rw [nn] at key2
  set A := ∑ i ∈ W, a i with hA
  have A1 : 1 / (4 * n) ≤ A := by
    refine le_trans ?_ key1
    have : (1 : ℝ) / (4 * n) = 1 / (2 * n) / 2 := by field_simp; norm_num
    linarith
  have A0 : 0 < A := lt_of_lt_of_le (by positivity) A1
  have eN : (chance fun w => attempt fl lo n table m w = none) = 1 - A := attempt_none h hw
  have N0 : 0 ≤ 1 - A := eN ▸ chance_nonneg _
  have share : s i / (P / (n * m)) = table i / P := by
    rw [hsdef]
    field_simp
  constructor
  · refine ⟨a i / A, ?_, ?_⟩
    · have e : (fun k => chance fun u : Fin k → Pair × Pair => loop fl lo n table m (List.ofFn u) = some i)
          = fun k => (∑ r ∈ Finset.range k, (1 - A) ^ r) * a i := by
        funext k
        rw [loop_some, eN]
      rw [e]
      have t := (hasSum_geometric_of_lt_one N0 (by linarith)).tendsto_sum_nat.mul_const (a i)
      have : (1 - (1 - A))⁻¹ * a i = a i / A := by rw [sub_sub_cancel, mul_comm, div_eq_mul_inv]
      rwa [this] at t
    · rw [share] at key2
      refine key2.trans ?_
      have b : 2 * ((n : ℝ) + 1) * (18 / 2 ^ 53) / (P / (n * m)) ≤ 2 * ((n : ℝ) + 1) * (18 / 2 ^ 53) / (1 / (2 * n)) :=
        div_le_div_of_nonneg_left (by positivity) (by positivity) S1
      refine b.trans ?_
      have : 2 * ((n : ℝ) + 1) * (18 / 2 ^ 53) / (1 / (2 * n)) = (n * n + n) * (72 / 2 ^ 53) := by field_simp; ring
      rw [this]
      norm_num
      nlinarith
  · intro k
    rw [loop_none, eN]
    exact pow_le_pow_left₀ N0 (by linarith) k

/-! ## The three windows -/

/-- **C149.** Tables that start at zero: the number of pre-fission neutrons and the bin of its spectrum. -/
theorem C149_from_zero (h : Double fl) (hn : 1 ≤ n) (hn2 : n ≤ 2 ^ 20) (hm : 1 / 2 ^ 400 ≤ m) (ht : ∀ i, 0 ≤ i → i < n → 0 ≤ table i ∧ table i ≤ m)
    (hs : m ≤ 2 * ∑ i ∈ Finset.Ico 0 n, table i) {i : Int} (h0 : 0 ≤ i) (h1 : i < n) :
    ∃ c, Filter.Tendsto (fun k => chance fun u : Fin k → Pair × Pair => loop fl 0 n table m (List.ofFn u) = some i) Filter.atTop (nhds c) ∧
      |c - table i / ∑ i ∈ Finset.Ico 0 n, table i| ≤ n ^ 2 / 2 ^ 45 := by
  have := (C149_law (table := table) h hn hn2 (by simpa using (by omega : 0 ≤ n)) (fun r d r0 r1 => by
    have := C125_index h hn (by omega) d r0 r1
    unfold drawIndex at this
    unfold drawFrom
    rw [Int.cast_zero, add_zero, h.fix (h.float _)]
    omega) hm (by simpa using ht) (by simpa using hs) h0 (by omega)).1
  simpa using this

/-- **C149.** Charges: offsets from `-d` to `d` against the largest entry of the column. -/
theorem C149_charge (h : Double fl) {d : Int} (hd : 0 ≤ d) (hd2 : d ≤ 2 ^ 18) (hm : 1 / 2 ^ 400 ≤ m)
    (ht : ∀ i, -d ≤ i → i ≤ d → 0 ≤ table i ∧ table i ≤ m) {k : Int} (hk : -d ≤ k ∧ k ≤ d) (hmax : table k = m) {i : Int} (h0 : -d ≤ i) (h1 : i ≤ d) :
    ∃ c, Filter.Tendsto (fun k => chance fun u : Fin k → Pair × Pair => loop fl (-d) (2 * d + 1) table m (List.ofFn u) = some i) Filter.atTop (nhds c) ∧
      |c - table i / ∑ i ∈ Finset.Icc (-d) d, table i| ≤ (2 * d + 1) ^ 2 / 2 ^ 45 := by
  have eW : Finset.Ico (-d) (-d + (2 * d + 1)) = Finset.Icc (-d) d := by
    ext x; rw [Finset.mem_Ico, Finset.mem_Icc]; omega
  have m0 : 0 < m := lt_of_lt_of_le (by positivity) hm
  have := (C149_law (table := table) (lo := -d) (n := 2 * d + 1) h (by omega) (by omega) (by rw [abs_neg, abs_of_nonneg hd]; omega) (fun r dd r0 r1 => by
    have := C125_charge h hd (by omega) dd r0 r1
    omega) hm (fun i a b => ht i a (by omega)) (by
      rw [eW]
      have := Finset.single_le_sum (f := table) (fun i hi => (ht i (Finset.mem_Icc.1 hi).1 (Finset.mem_Icc.1 hi).2).1) (Finset.mem_Icc.2 hk)
      rw [hmax] at this
      linarith) h0 (by omega)).1
  rw [eW] at this
  push_cast at this
  exact this

/-- **C149.** Masses: the window 50 .. 200 that the constructor sets, against the largest yield. -/
theorem C149_mass (h : Double fl) (hm : 1 / 2 ^ 400 ≤ m)
    (ht : ∀ i, 50 ≤ i → i ≤ 200 → 0 ≤ table i ∧ table i ≤ m) {k : Int} (hk : 50 ≤ k ∧ k ≤ 200) (hmax : table k = m) {i : Int} (h0 : 50 ≤ i) (h1 : i ≤ 200) :
    ∃ c, Filter.Tendsto (fun k => chance fun u : Fin k → Pair × Pair => loop fl 50 (200 - 50 + 1) table m (List.ofFn u) = some i) Filter.atTop (nhds c) ∧
      |c - table i / ∑ i ∈ Finset.Icc 50 200, table i| ≤ 1 / 10 ^ 9 := by
  have eW : Finset.Ico (50 : Int) (50 + (200 - 50 + 1)) = Finset.Icc 50 200 := rfl
  have m0 : 0 < m := lt_of_lt_of_le (by positivity) hm
  obtain ⟨c, t, b⟩ := (C149_law (table := table) (lo := 50) (n := 200 - 50 + 1) h (by omega) (by omega) (by norm_num) (fun r dd r0 r1 => by
    have := C125_mass h dd r0 r1
    omega) hm (fun i a b => ht i a (by omega)) (by
      rw [eW]
      have := Finset.single_le_sum (f := table) (fun i hi => (ht i (Finset.mem_Icc.1 hi).1 (Finset.mem_Icc.1 hi).2).1) (Finset.mem_Icc.2 hk)
      rw [hmax] at this
      linarith) h0 (by omega)).1
  rw [eW] at b
  exact ⟨c, t, b.trans (by norm_num)⟩

/-! ## The spin -/

theorem total_near (h : Double fl) {weight : Nat → ℝ} (w0 : ∀ j, 0 ≤ weight j) (k : Nat) (hk : k ≤ 2 ^ 52) :
    0 ≤ total fl weight k ∧ |total fl weight k - ∑ j ∈ Finset.range k, weight j| ≤ (∑ j ∈ Finset.range k, weight j) * (k / 2 ^ 52) + k * 2 ^ (-1074 : Int) := by
  induction k with
  | zero => simp [total]
  | succ k ih =>
    obtain ⟨t0, ih⟩ := ih (by omega)
    rw [Finset.sum_range_succ, total]
    set S := ∑ j ∈ Finset.range k, weight j with hS
    set t := total fl weight k
    set w := weight k with hw
    set τ : ℝ := 2 ^ (-1074 : Int) with hτ
    have τ0 : 0 < τ := by positivity
    have S0 : 0 ≤ S := Finset.sum_nonneg fun j _ => w0 j
    have hw0 : 0 ≤ w := w0 k
    have k0 : (0 : ℝ) ≤ k := Nat.cast_nonneg k
    have k1 : (k : ℝ) + 1 ≤ 2 ^ 52 := by exact_mod_cast hk
    have an := h.any (x := t + w) (by norm_num)
    rw [abs_of_nonneg (show 0 ≤ t + w by linarith)] at an
    refine ⟨h.nonneg (by linarith), ?_⟩
    have kk : S * (k / 2 ^ 52) ≤ S := by
      refine mul_le_of_le_one_right S0 ?_
      rw [div_le_one (by positivity)]
      linarith
    have ih' := abs_le.1 ih
    have tw : t + w ≤ 2 * (S + w) + k * τ := by linarith [ih'.2]
    have e1 : (t + w) / 2 ^ 53 ≤ (S + w) / 2 ^ 52 + τ / 2 := by
      have : (t + w) / 2 ^ 53 ≤ (2 * (S + w) + k * τ) / 2 ^ 53 := div_le_div_of_nonneg_right tw (by positivity)
      refine this.trans ?_
      have : k * τ ≤ 2 ^ 52 * τ := mul_le_mul_of_nonneg_right (by linarith) τ0.le
      have e : (2 * (S + w) + k * τ) / 2 ^ 53 = (S + w) / 2 ^ 52 + k * τ / 2 ^ 53 := by ring
      rw [e]
      have : k * τ / 2 ^ 53 ≤ 2 ^ 52 * τ / 2 ^ 53 := div_le_div_of_nonneg_right this (by positivity)
      have e : 2 ^ 52 * τ / 2 ^ 53 = τ / 2 := by ring
      linarith
    have r : fl (t + w) - (S + w) = (fl (t + w) - (t + w)) + (t - S) := by ring
    rw [r]
    refine (abs_add_le _ _).trans ?_
    push_cast
    have e2 : (S + w) * ((k + 1) / 2 ^ 52) = S * (k / 2 ^ 52) + w * (k / 2 ^ 52) + (S + w) / 2 ^ 52 := by ring
    have : 0 ≤ w * (k / 2 ^ 52) := by positivity
    linarith

theorem total_ge (h : Double fl) {weight : Nat → ℝ} (w0 : ∀ j, 0 ≤ weight j) (wd : ∀ j, IsDouble (weight j)) {j k : Nat} (hj : j < k) :
    weight j ≤ total fl weight k := by
  have td : ∀ k, IsDouble (total fl weight k) ∧ 0 ≤ total fl weight k := by
    intro k
    induction k with
    | zero => exact ⟨isFloat_zero, le_rfl⟩
    | succ k ih => exact ⟨h.float _, h.nonneg (by linarith [w0 k, ih.2])⟩
  induction k with
  | zero => omega
  | succ k ih =>
    rw [total]
    rcases (by omega : j = k ∨ j < k) with rfl | hlt
    · exact h.ge_of (wd j) (by linarith [(td j).2])
    · exact (ih hlt).trans (h.ge_of (td k).1 (by linarith [w0 k]))

/-- **C149.** The initial spin: the weights added and divided by their sum in double arithmetic, then the loop.  The chance of spin
number `j` tends to its share in the weights up to `n^2/2^44`. -/
theorem C149_spin (h : Double fl) {weight : Nat → ℝ} (w0 : ∀ j, 0 ≤ weight j) (wd : ∀ j, IsDouble (weight j)) {n : Nat} (hn2 : n ≤ 2 ^ 20)
    {l : Nat} (hl : l < n) (big : 1 / 2 ^ 400 ≤ weight l) {j : Nat} (hj : j < n) :
    ∃ c, Filter.Tendsto (fun k => chance fun u : Fin k → Pair × Pair => loop fl 0 n (spinTable fl weight n) 1 (List.ofFn u) = some (j : Int))
        Filter.atTop (nhds c) ∧
      |c - weight j / ∑ j ∈ Finset.range n, weight j| ≤ n ^ 2 / 2 ^ 44 := by
  have n1 : (1 : ℝ) ≤ n := by exact_mod_cast (by omega : 1 ≤ n)
  have n2 : (n : ℝ) ≤ 1048576 := by
    have : n ≤ 1048576 := by norm_num at hn2; exact hn2
    exact_mod_cast this
  obtain ⟨T0, near⟩ := total_near h w0 n (by omega)
  have wT : ∀ j < n, weight j ≤ total fl weight n := fun j hj => total_ge h w0 wd hj
  set T := total fl weight n with hT
  set S := ∑ j ∈ Finset.range n, weight j with hS
  have lS : weight l ≤ S := Finset.single_le_sum (fun j _ => w0 j) (Finset.mem_range.2 hl)
  have p400 : (0 : ℝ) < 1 / 2 ^ 400 := by positivity
  have S0 : 0 < S := by linarith
  have Tpos : 0 < T := by linarith [wT l hl]
  have τ0 : (0 : ℝ) < 2 ^ (-1074 : Int) := by positivity
  have τ1 : (2 : ℝ) ^ (-1074 : Int) / 2 ≤ 1 / 2 ^ 53 / 8 * S := by
    refine tiny.trans ?_
    have : 1 / 2 ^ 53 / 8 * (1 / 2 ^ 400) ≤ 1 / 2 ^ 53 / 8 * S := mul_le_mul_of_nonneg_left (by linarith) (by positivity)
    refine le_trans (le_of_eq ?_) this
    ring
  have τ2 : (2 : ℝ) ^ (-1074 : Int) / 2 ≤ 1 / 2 ^ 53 / 8 := by
    refine tiny.trans ?_
    have : (1 : ℝ) / 2 ^ 53 / 2 ^ 400 ≤ 1 / 2 ^ 53 := div_le_self (by positivity) (one_le_pow₀ (by norm_num))
    linarith
  have near' := abs_le.1 near
  have T2 : T ≤ S * (1 + 1 / 2 ^ 30) := by
    have a : S * (n / 2 ^ 52) ≤ S * (1048576 / 2 ^ 52) := mul_le_mul_of_nonneg_left (div_le_div_of_nonneg_right n2 (by positivity)) S0.le
    have b : (n : ℝ) * 2 ^ (-1074 : Int) ≤ 1048576 * 2 ^ (-1074 : Int) := mul_le_mul_of_nonneg_right n2 τ0.le
    have c : S * (1048576 / 2 ^ 52) = S / 2 ^ 32 := by ring
    generalize (2 : ℝ) ^ (-1074 : Int) = τ at *
    generalize S * (n / 2 ^ 52) = z at *
    have d := near'.2
    norm_num at c τ1 ⊢
    linarith
  -- the table
  have tb : ∀ j < n, |fl (weight j / T) - weight j / T| ≤ 1 / 2 ^ 52 := by
    intro j hj
    have q0 : 0 ≤ weight j / T := div_nonneg (w0 j) Tpos.le
    have q1 : weight j / T ≤ 1 := by rw [div_le_one Tpos]; exact wT j hj
    have := h.any (x := weight j / T) (by norm_num)
    rw [abs_of_nonneg q0] at this
    refine this.trans ?_
    have : weight j / T / 2 ^ 53 ≤ 1 / 2 ^ 53 := div_le_div_of_nonneg_right q1 (by positivity)
    norm_num at this τ2 ⊢
    linarith
  have sumS : ∑ j ∈ Finset.range n, weight j / T = S / T := by rw [hS, Finset.sum_div]
  have ST : 3 / 4 ≤ S / T := by
    rw [le_div_iff₀ Tpos]
    norm_num at T2
    linarith
  obtain ⟨_, share⟩ := near_share (Finset.range n) (a := fun j => fl (weight j / T)) (s := fun j => weight j / T) (e := 1 / 2 ^ 52) (Finset.card_range n)
    (by positivity) (fun j _ => div_nonneg (w0 j) Tpos.le) (fun j hj => tb j (Finset.mem_range.1 hj))
    (by
      rw [sumS]
      refine le_trans ?_ ST
      norm_num
      linarith)
    (by rw [sumS]; linarith) (Finset.mem_range.2 hj)
  rw [sumS] at share
  set B := ∑ j ∈ Finset.range n, fl (weight j / T) with hB
  have eB : ∑ i ∈ Finset.Ico (0 : Int) n, spinTable fl weight n i = B := by
    rw [hB]
    symm
    refine Finset.sum_bij (fun j _ => (j : Int)) ?_ ?_ ?_ ?_
    · intro j hj
      rw [Finset.mem_range] at hj
      rw [Finset.mem_Ico]
      omega
    · intro a _ b _ e
      exact_mod_cast e
    · intro b hb
      rw [Finset.mem_Ico] at hb
      exact ⟨b.toNat, Finset.mem_range.2 (by omega), by omega⟩
    · intro j _
      unfold spinTable
      rw [Int.toNat_natCast]
  have B1 : 1 / 2 ≤ B := by
    have d : |B - S / T| ≤ n * (1 / 2 ^ 52) := by
      rw [hB, ← sumS, ← Finset.sum_sub_distrib]
      refine (Finset.abs_sum_le_sum_abs _ _).trans ?_
      refine (Finset.sum_le_sum fun j hj => tb j (Finset.mem_range.1 hj)).trans ?_
      rw [Finset.sum_const, Finset.card_range, nsmul_eq_mul]
    have d := (abs_le.1 d).1
    generalize S / T = z at *
    norm_num at d ⊢
    linarith
  have one : IsDouble (1 : ℝ) := by
    have := int_double (k := 1) (by norm_num) (j := 1) (by norm_num) (by norm_num)
    simpa using this
  obtain ⟨c, t, b⟩ := C149_from_zero (table := spinTable fl weight n) (n := n) (m := 1) h (by omega) (by exact_mod_cast hn2)
    (by rw [div_le_one (by positivity)]; exact one_le_pow₀ (by norm_num))
    (fun i i0 i1 => by
      unfold spinTable
      refine ⟨h.nonneg (div_nonneg (w0 _) Tpos.le), h.le_of one ?_⟩
      rw [div_le_one Tpos]
      exact wT _ (by omega))
    (by rw [eB]; linarith) (i := j) (by omega) (by exact_mod_cast hj)
  refine ⟨c, t, ?_⟩
  rw [eB] at b
  have e1 : spinTable fl weight n (j : Int) = fl (weight j / T) := by unfold spinTable; rw [Int.toNat_natCast]
  rw [e1] at b
  have e2 : weight j / T / (S / T) = weight j / S := by field_simp
  rw [e2] at share
  have f : 2 * ((n : ℝ) + 1) * (1 / 2 ^ 52) / (S / T) ≤ n ^ 2 / 2 ^ 45 := by
    rw [div_le_iff₀ (by linarith)]
    have : n ^ 2 / 2 ^ 45 * (3 / 4) ≤ (n : ℝ) ^ 2 / 2 ^ 45 * (S / T) := mul_le_mul_of_nonneg_left ST (by positivity)
    refine le_trans ?_ this
    norm_num
    nlinarith
  have r : c - weight j / S = (c - fl (weight j / T) / B) + (fl (weight j / T) / B - weight j / S) := by ring
  rw [r]
  refine (abs_add_le _ _).trans ?_
  have b' : |c - fl (weight j / T) / B| ≤ (n : ℝ) ^ 2 / 2 ^ 45 := by simpa using b
  have e3 : (n : ℝ) ^ 2 / 2 ^ 44 = n ^ 2 / 2 ^ 45 + n ^ 2 / 2 ^ 45 := by ring
  rw [e3]
  exact add_le_add b' (share.trans f)

/-- Fifty spins of equal weight: each is drawn in two per cent of the cases. -/
example : ∃ fl, Double fl ∧ ∃ c, Filter.Tendsto
    (fun k => chance fun u : Fin k → Pair × Pair => loop fl 0 50 (spinTable fl (fun _ => 1) 50) 1 (List.ofFn u) = some 7) Filter.atTop (nhds c) ∧
    |c - 1 / 50| ≤ 1 / 10 ^ 9 := by
  have h : Double (roundTo 53 (-1074)) := nearest_roundTo (by norm_num)
  have one : IsDouble (1 : ℝ) := by
    have := int_double (k := 1) (by norm_num) (j := 1) (by norm_num) (by norm_num)
    simpa using this
  obtain ⟨c, t, b⟩ := C149_spin h (weight := fun _ => 1) (fun _ => zero_le_one) (fun _ => one) (n := 50) (by norm_num) (l := 0) (by norm_num)
    (by rw [div_le_one (by positivity)]; exact one_le_pow₀ (by norm_num)) (j := 7) (by norm_num)
  refine ⟨_, h, c, t, ?_⟩
  rw [Finset.sum_const, Finset.card_range] at b
  norm_num at b ⊢
  linarith

/-- Charges around the most probable one with a column falling to both sides, and masses with two peaks. -/
example : ∃ fl, Double fl ∧
    (∃ c, Filter.Tendsto (fun k => chance fun u : Fin k → Pair × Pair =>
        loop fl (-2) (2 * 2 + 1) (fun i => if i = 0 then 1 else 1 / 4) 1 (List.ofFn u) = some 1) Filter.atTop (nhds c) ∧ |c - 1 / 8| ≤ 1 / 10 ^ 9) ∧
    ∃ c, Filter.Tendsto (fun k => chance fun u : Fin k → Pair × Pair =>
        loop fl 50 (200 - 50 + 1) (fun i => if i = 100 ∨ i = 140 then 3 else 0) 3 (List.ofFn u) = some 140) Filter.atTop (nhds c) ∧
      |c - 1 / 2| ≤ 1 / 10 ^ 9 := by
  have h : Double (roundTo 53 (-1074)) := nearest_roundTo (by norm_num)
  have p : (1 : ℝ) / 2 ^ 400 ≤ 1 := by rw [div_le_one (by positivity)]; exact one_le_pow₀ (by norm_num)
  refine ⟨_, h, ?_, ?_⟩
  · obtain ⟨c, t, b⟩ := C149_charge h (d := 2) (by norm_num) (by norm_num) (table := fun i => if i = 0 then 1 else 1 / 4) p
      (fun i _ _ => by split_ifs <;> norm_num) (k := 0) (by norm_num) (by norm_num) (i := 1) (by norm_num) (by norm_num)
    refine ⟨c, t, ?_⟩
    have e : ∑ i ∈ Finset.Icc (-2 : Int) 2, (if i = 0 then (1 : ℝ) else 1 / 4) = 2 := by
      rw [show Finset.Icc (-2 : Int) 2 = {-2, -1, 0, 1, 2} from rfl]
      norm_num
    rw [e] at b
    norm_num at b ⊢
    linarith
  · obtain ⟨c, t, b⟩ := C149_mass h (table := fun i => if i = 100 ∨ i = 140 then 3 else 0) (m := 3) (by linarith)
      (fun i _ _ => by split_ifs <;> norm_num) (k := 100) (by norm_num) (by norm_num) (i := 140) (by norm_num) (by norm_num)
    refine ⟨c, t, ?_⟩
    have e : ∑ i ∈ Finset.Icc (50 : Int) 200, (if i = 100 ∨ i = 140 then (3 : ℝ) else 0) = 6 := by
      rw [← Finset.sum_filter, show (Finset.Icc (50 : Int) 200).filter (fun i => i = 100 ∨ i = 140) = {100, 140} by decide +kernel]
      norm_num
    rw [e] at b
    norm_num at b ⊢
    linarith

end CGMF.Props

import Verif.Proofs.Float
import Verif.Model.FloatDecay

/-!
# The energy mesh in floating-point arithmetic
-/

namespace CGMF.Fp

variable {fl : ℝ → ℝ}

/-- The difference of two numbers within a factor of two is a number of the format. -/
theorem sterbenz {p : Nat} {emin : Int} {a b : ℝ} (ha : IsFloat p emin a) (hb : IsFloat p emin b) (h0 : 0 ≤ b) (h1 : b ≤ a) (h2 : a ≤ 2 * b) :
    IsFloat p emin (a - b) := by
  obtain ⟨m1, e1, hm1, he1, rfl⟩ := ha
  obtain ⟨m2, e2, hm2, he2, rfl⟩ := hb
  have key : ∀ (e : Int) (c : ℝ) (m : Int), |m| < 2 ^ p → emin ≤ e → c = m * (2 : ℝ) ^ e → m1 * (2 : ℝ) ^ e1 - m2 * (2 : ℝ) ^ e2 ≤ c →
      (∃ M : Int, m1 * (2 : ℝ) ^ e1 - m2 * (2 : ℝ) ^ e2 = M * (2 : ℝ) ^ e) → IsFloat p emin (m1 * (2 : ℝ) ^ e1 - m2 * (2 : ℝ) ^ e2) := by
    rintro e c m hm he hc hle ⟨M, hM⟩
    refine ⟨M, e, ?_, he, hM⟩
    have hp : (0 : ℝ) < 2 ^ e := by positivity
    have M0 : (0 : ℝ) ≤ M := by
      by_contra hneg
      have := mul_neg_of_neg_of_pos (not_le.1 hneg) hp
      linarith
    have Mm : (M : ℝ) ≤ m := by
      rw [hM, hc] at hle
      exact le_of_mul_le_mul_right hle hp
    have a1 : (0 : Int) ≤ M := by exact_mod_cast M0
    have a2 : M ≤ m := by exact_mod_cast Mm
    rw [abs_of_nonneg a1]
    exact lt_of_le_of_lt (a2.trans (le_abs_self m)) hm
  rcases le_total e2 e1 with h | h
  · refine key e2 (m2 * (2 : ℝ) ^ e2) m2 hm2 he2 rfl (by linarith) ⟨m1 * 2 ^ (e1 - e2).toNat - m2, ?_⟩
    have : (2 : ℝ) ^ e1 = 2 ^ (e1 - e2).toNat * 2 ^ e2 := by
      rw [← zpow_natCast, ← zpow_add₀ (by norm_num), Int.toNat_of_nonneg (by omega)]
      congr 1; ring
    rw [this]; push_cast; ring
  · refine key e1 (m1 * (2 : ℝ) ^ e1) m1 hm1 he1 rfl (by linarith) ⟨m1 - m2 * 2 ^ (e2 - e1).toNat, ?_⟩
    have : (2 : ℝ) ^ e2 = 2 ^ (e2 - e1).toNat * 2 ^ e1 := by
      rw [← zpow_natCast, ← zpow_add₀ (by norm_num), Int.toNat_of_nonneg (by omega)]
      congr 1; ring
    rw [this]; push_cast; ring

/-- A difference of two different numbers is not rounded to zero. -/
theorem Nearest.sub_pos {p : Nat} {emin : Int} (h : Nearest p emin fl) (hp : 0 < p) {a b : ℝ} (ha : IsFloat p emin a) (hb : IsFloat p emin b)
    (hlt : b < a) : 0 < fl (a - b) := by
  obtain ⟨m1, e1, hm1, he1, rfl⟩ := ha
  obtain ⟨m2, e2, hm2, he2, rfl⟩ := hb
  have step : ∀ (m e : Int), emin ≤ e → ∃ M : Int, (m : ℝ) * (2 : ℝ) ^ e = M * (2 : ℝ) ^ emin := by
    intro m e he
    refine ⟨m * 2 ^ (e - emin).toNat, ?_⟩
    have : (2 : ℝ) ^ e = 2 ^ (e - emin).toNat * 2 ^ emin := by
      rw [← zpow_natCast, ← zpow_add₀ (by norm_num), Int.toNat_of_nonneg (by omega)]
      congr 1; ring
    rw [this]; push_cast; ring
  obtain ⟨M1, h1⟩ := step m1 e1 he1
  obtain ⟨M2, h2⟩ := step m2 e2 he2
  rw [h1, h2] at hlt ⊢
  have q : (0 : ℝ) < 2 ^ emin := by positivity
  have hM : M2 < M1 := by
    have := lt_of_mul_lt_mul_right hlt q.le
    exact_mod_cast this
  have hM' : (M2 : ℝ) + 1 ≤ M1 := by exact_mod_cast hM
  have : (2 : ℝ) ^ emin ≤ fl (M1 * 2 ^ emin - M2 * 2 ^ emin) := h.ge_of (isFloat_zpow hp le_rfl) (by nlinarith)
  linarith

/-- Error of a rounding of a number up to 256. -/
theorem err256 (h : Double fl) {x : ℝ} (hx : |x| ≤ 256) : |fl x - x| ≤ 1 / 2 ^ 46 := by
  have := h.error (x := x) (e := -45) (by omega) (by omega) (by norm_num at hx ⊢; exact hx)
  norm_num at this ⊢
  linarith

theorem IsDouble.double {x : ℝ} (hx : IsDouble x) : IsDouble (2 * x) := by
  obtain ⟨m, e, hm, he, rfl⟩ := hx
  refine ⟨m, e + 1, hm, by omega, ?_⟩
  rw [zpow_add₀ (by norm_num), zpow_one]; ring

theorem half_bin : energyBin * (1 / 2) = (3602879701896397 : Int) * (2 : ℝ) ^ (-57 : Int) := by
  unfold energyBin
  norm_num

theorem fl_half_bin (h : Double fl) : fl (energyBin * (1 / 2)) = energyBin * (1 / 2) := by
  apply h.fix
  rw [half_bin]
  exact isFloat_mul (by norm_num) (by omega) (by omega)

theorem bin_value : (0.0499 : ℝ) < energyBin ∧ energyBin < 0.0501 := by
  unfold energyBin
  norm_num

theorem bin_double : IsDouble energyBin := by
  have := isFloat_mul (p := 53) (emin := -1074) (m := 3602879701896397) (e := -56) (by norm_num) (by omega) (by omega)
  convert this using 1
  unfold energyBin
  norm_num

theorem binEnergy_double (h : Double fl) (k : Nat) : IsDouble (binEnergy fl k) := by
  cases k with
  | zero => exact h.float _
  | succ k => exact h.float _

theorem binEnergy_mono (h : Double fl) {j k : Nat} (hjk : j ≤ k) : binEnergy fl j ≤ binEnergy fl k := by
  induction k, hjk using Nat.le_induction with
  | base => exact le_rfl
  | succ k _ ih =>
    refine ih.trans (h.ge_of (binEnergy_double h k) ?_)
    have := bin_value.1
    linarith

theorem binEnergy_zero (h : Double fl) : binEnergy fl 0 = energyBin * (1 / 2) := fl_half_bin h

theorem binEnergy_one (h : Double fl) : 0.0748 ≤ binEnergy fl 1 := by
  have e : binEnergy fl 1 = fl (energyBin * (1 / 2) + energyBin) := by
    show fl (binEnergy fl 0 + energyBin) = _
    rw [binEnergy_zero h]
  have v := bin_value
  have := err256 h (x := energyBin * (1 / 2) + energyBin) (by rw [abs_of_nonneg (by linarith)]; linarith)
  rw [e]
  obtain ⟨a, _⟩ := abs_le.1 this
  norm_num at a v ⊢
  linarith

theorem search_spec (E : ℝ) : ∀ n k m, searchBin fl E n k = some m → k ≤ m ∧ E < binEnergy fl m ∧ ∀ j, k ≤ j → j < m → binEnergy fl j ≤ E := by
  intro n
  induction n with
  | zero => intro k m h; simp [searchBin] at h
  | succ n ih =>
    intro k m h
    unfold searchBin at h
    split_ifs at h with hc
    · have : k = m := by simpa using h
      subst this
      exact ⟨le_rfl, hc, fun j a b => by omega⟩
    · obtain ⟨a, b, c⟩ := ih _ _ h
      refine ⟨by omega, b, fun j hj hjm => ?_⟩
      rcases Nat.lt_or_ge k j with hk | hk
      · exact c j (by omega) hjm
      · have : j = k := by omega
        subst this
        exact not_lt.1 hc

theorem total_spec {E : ℝ} {n : Nat} (hn : total fl E = some n) {k : Nat} (hk : k + 1 < n) : binEnergy fl k ≤ E := by
  unfold total at hn
  cases hs : searchBin fl E 2500 0 with
  | none => simp [hs] at hn
  | some m =>
    simp [hs] at hn
    exact (search_spec E 2500 0 m hs).2.2 k (by omega) (by omega)

theorem total_ge {E : ℝ} (hE : 1 / 5 ≤ E) (h : Double fl) {n : Nat} (hn : total fl E = some n) : 2 ≤ n := by
  unfold total at hn
  cases hs : searchBin fl E 2500 0 with
  | none => simp [hs] at hn
  | some m =>
    simp [hs] at hn
    have := (search_spec E 2500 0 m hs).2.1
    by_contra hlt
    have hm : m = 0 := by omega
    subst hm
    rw [binEnergy_zero h] at this
    have v := bin_value.2
    norm_num at v
    linarith

theorem excitation_nonneg (h : Double fl) {E : ℝ} {n : Nat} (hn : total fl E = some n) (k : Nat) : 0 ≤ excitation fl E n k := by
  unfold excitation
  split_ifs with hk
  · have := total_spec hn hk
    have a : 0 ≤ fl (E - binEnergy fl k) := h.nonneg (by linarith)
    rw [fl_half_bin h]
    have := bin_value.1
    exact h.nonneg (by linarith)
  · exact le_rfl

theorem excitation_double (h : Double fl) (E : ℝ) (n k : Nat) : IsDouble (excitation fl E n k) := by
  unfold excitation
  split_ifs
  · exact h.float _
  · exact isFloat_zero

theorem excitation_anti (h : Double fl) {E : ℝ} {n : Nat} (hn : total fl E = some n) {j k : Nat} (hjk : j ≤ k) :
    excitation fl E n k ≤ excitation fl E n j := by
  by_cases hk : k + 1 < n
  · have hj : j + 1 < n := by omega
    simp only [excitation, hk, hj, if_true]
    have := binEnergy_mono h hjk
    have := h.mono (show E - binEnergy fl k ≤ E - binEnergy fl j by linarith)
    exact h.mono (by linarith)
  · have : excitation fl E n k = 0 := by simp [excitation, hk]
    rw [this]
    exact excitation_nonneg h hn j

/-- The first bin is at the maximum energy up to rounding. -/
theorem excitation_zero_le (h : Double fl) {E : ℝ} (h0 : 0 ≤ E) (h1 : E ≤ 128) (n : Nat) : excitation fl E n 0 ≤ E + 1 / 2 ^ 45 := by
  unfold excitation
  split_ifs
  · rw [binEnergy_zero h, fl_half_bin h]
    have v := bin_value
    norm_num at v
    have e1 := (abs_le.1 (err256 h (x := E - energyBin * (1 / 2)) (by rw [abs_le]; constructor <;> linarith))).2
    have e1' := (abs_le.1 (err256 h (x := E - energyBin * (1 / 2)) (by rw [abs_le]; constructor <;> linarith))).1
    have e2 := (abs_le.1 (err256 h (x := fl (E - energyBin * (1 / 2)) + energyBin * (1 / 2))
      (by norm_num at e1 e1'; rw [abs_le]; constructor <;> linarith))).2
    norm_num at e1 e2 ⊢
    linarith
  · positivity

/-- The other bins are below it by almost a bin. -/
theorem excitation_one_le (h : Double fl) {E : ℝ} (h1 : E ≤ 128) {n k : Nat} (hn : total fl E = some n)
    (hk : 1 ≤ k) (hkn : k + 1 < n) : excitation fl E n k ≤ E - 0.0496 := by
  refine (excitation_anti h hn hk).trans ?_
  have h2 : 1 + 1 < n := by omega
  have b1 := binEnergy_one h
  have hb := total_spec hn h2
  simp only [excitation, h2, if_true]
  rw [fl_half_bin h]
  have v := bin_value
  norm_num at v b1
  have e1 := abs_le.1 (err256 h (x := E - binEnergy fl 1) (by rw [abs_le]; constructor <;> linarith))
  norm_num at e1
  have e2 := abs_le.1 (err256 h (x := fl (E - binEnergy fl 1) + energyBin * (1 / 2))
    (by rw [abs_le]; constructor <;> linarith))
  norm_num at e2 ⊢
  linarith

/-- **The first bin is exactly at the maximum energy.** -/
theorem excitation_top (h : Double fl) {E : ℝ} (hE : IsDouble E) (h1 : 1 / 5 ≤ E) {n : Nat} (hn : 2 ≤ n) :
    excitation fl E n 0 = E := by
  have hlt : 0 + 1 < n := by omega
  simp only [excitation, hlt, if_true]
  rw [binEnergy_zero h, fl_half_bin h, half_bin]
  set b : ℝ := (3602879701896397 : Int) * (2 : ℝ) ^ (-57 : Int) with hb
  have b0 : 0 < b := by rw [hb]; positivity
  have b1 : b < 251 / 10000 := by rw [hb]; norm_num
  clear_value b
  have hpos : 0 < E - b := by linarith
  set l := Int.log 2 (E - b) with hl
  have l1 : (2 : ℝ) ^ l ≤ E - b := by simpa using Int.zpow_log_le_self (R := ℝ) (b := 2) (by norm_num) hpos
  have l2 : E - b < (2 : ℝ) ^ (l + 1) := by simpa using Int.lt_zpow_succ_log_self (R := ℝ) (b := 2) (by norm_num) (E - b)
  have hl0 : -3 ≤ l := by
    by_contra hc
    have : (2 : ℝ) ^ (l + 1) ≤ 2 ^ (-3 : Int) := zpow_le_zpow_right₀ (by norm_num) (by omega)
    norm_num at this
    linarith
  set e : Int := l - 52 with he
  have u0 : (0 : ℝ) < 2 ^ e := by positivity
  have err := h.error (x := E - b) (e := e) (by omega) (by omega)
    (by rw [abs_of_pos hpos, show ((53 : Nat) : Int) + e = l + 1 by rw [he]; push_cast; ring]; exact l2.le)
  have pw : ((53 : Nat) : Int) - 1 + e = l := by rw [he]; push_cast; ring
  -- everything in sight is a multiple of 2^e
  obtain ⟨kE, hkE⟩ := hE.multiple (e := e) (by rw [pw, abs_of_pos (by linarith)]; linarith)
  have gy : (2 : ℝ) ^ l ≤ fl (E - b) := h.ge_of (isFloat_zpow (by omega) (by omega)) l1
  obtain ⟨ky, hky⟩ := (h.float (E - b)).multiple (e := e) (by rw [pw, abs_of_pos (lt_of_lt_of_le (by positivity) gy)]; exact gy)
  have gz : (2 : ℝ) ^ l ≤ fl (fl (E - b) + b) := h.ge_of (isFloat_zpow (by omega) (by omega)) (by linarith)
  obtain ⟨kz, hkz⟩ := (h.float (fl (E - b) + b)).multiple (e := e)
    (by rw [pw, abs_of_pos (lt_of_lt_of_le (by positivity) gz)]; exact gz)
  -- no tie
  have strict : |fl (E - b) + b - E| < 2 ^ e / 2 := by
    have hle : |fl (E - b) + b - E| ≤ 2 ^ e / 2 := by
      rw [show fl (E - b) + b - E = fl (E - b) - (E - b) by ring]; exact err
    refine lt_of_le_of_ne hle fun heq => ?_
    have odd : ∃ j : Int, 2 * b = j * (2 : ℝ) ^ e := by
      rcases abs_cases (fl (E - b) + b - E) with ⟨a, _⟩ | ⟨a, _⟩
      · refine ⟨2 * (kE - ky) + 1, ?_⟩
        rw [a, hky] at heq
        rw [hkE] at heq
        push_cast; linarith
      · refine ⟨2 * (kE - ky) - 1, ?_⟩
        rw [a, hky] at heq
        rw [hkE] at heq
        push_cast; linarith
    obtain ⟨j, hj⟩ := odd
    rw [hb] at hj
    have e55 : (2 : ℝ) ^ e = ((2 : Int) ^ (e + 55).toNat : Int) * (2 : ℝ) ^ (-55 : Int) := by
      rw [zpow_nat_cast, Int.toNat_of_nonneg (by omega), ← zpow_add₀ (by norm_num)]
      congr 1; ring
    rw [e55] at hj
    have : (2 * 3602879701896397 : ℝ) = (j * 2 ^ (e + 55).toNat : Int) * 4 := by
      have q : (2 : ℝ) ^ (-55 : Int) = 4 * 2 ^ (-57 : Int) := by norm_num
      rw [q] at hj
      have q57 : (0 : ℝ) < 2 ^ (-57 : Int) := by positivity
      have hj' : (2 * 3602879701896397 : ℝ) * 2 ^ (-57 : Int) = ((j * 2 ^ (e + 55).toNat : Int) * 4) * 2 ^ (-57 : Int) := by
        push_cast at hj ⊢
        linarith
      exact mul_right_cancel₀ q57.ne' hj'
    have : (2 * 3602879701896397 : Int) = (j * 2 ^ (e + 55).toNat) * 4 := by exact_mod_cast this
    omega
  -- the second rounding gives E back
  have near := h.near (fl (E - b) + b) E hE
  have gap : |fl (fl (E - b) + b) - E| < 2 ^ e := by
    calc |fl (fl (E - b) + b) - E| = |(fl (fl (E - b) + b) - (fl (E - b) + b)) + (fl (E - b) + b - E)| := by ring_nf
      _ ≤ |fl (fl (E - b) + b) - (fl (E - b) + b)| + |fl (E - b) + b - E| := abs_add_le _ _
      _ ≤ |E - (fl (E - b) + b)| + |fl (E - b) + b - E| := by linarith
      _ = 2 * |fl (E - b) + b - E| := by rw [abs_sub_comm E]; ring
      _ < 2 ^ e := by linarith
  rw [hkz] at gap ⊢
  rw [hkE] at gap ⊢
  rw [← sub_mul, abs_mul, abs_of_pos u0] at gap
  have : |((kz : ℝ) - kE)| < 1 := by
    by_contra hc
    have := mul_le_mul_of_nonneg_right (not_lt.1 hc) u0.le
    linarith
  have : |kz - kE| < 1 := by exact_mod_cast this
  rw [Int.abs_lt_one_iff] at this
  rw [show kz = kE by omega]


/-- The bin energies up to the last one. -/
theorem binEnergy_range (h : Double fl) (k : Nat) (hk : k ≤ 2500) :
    0.0499 * (k + 1 / 2 : ℝ) ≤ binEnergy fl k ∧ binEnergy fl k ≤ 0.0501 * (k + 1 / 2 : ℝ) := by
  have v : (0.04999 : ℝ) < energyBin ∧ energyBin < 0.05001 := by unfold energyBin; norm_num
  induction k with
  | zero => rw [binEnergy_zero h]; norm_num at v ⊢; constructor <;> linarith
  | succ k ih =>
    have ih := ih (by omega)
    have hk' : (k : ℝ) ≤ 2500 := by exact_mod_cast (by omega : k ≤ 2500)
    have k0 : (0 : ℝ) ≤ k := Nat.cast_nonneg k
    norm_num at v ih
    obtain ⟨v1, v2⟩ := v
    obtain ⟨i1, i2⟩ := ih
    have e := abs_le.1 (err256 h (x := binEnergy fl k + energyBin) (by rw [abs_le]; constructor <;> linarith))
    rw [binEnergy]
    norm_num at e ⊢
    obtain ⟨e1, e2⟩ := e
    constructor <;> linarith

theorem search_bound (E : ℝ) : ∀ n k m, searchBin fl E n k = some m → m < k + n := by
  intro n
  induction n with
  | zero => intro k m h; simp [searchBin] at h
  | succ n ih =>
    intro k m h
    unfold searchBin at h
    split_ifs at h
    · have : k = m := by simpa using h
      omega
    · have := ih _ _ h
      omega

theorem search_some (E : ℝ) : ∀ n k m, k ≤ m → m < k + n → E < binEnergy fl m → ∃ j, searchBin fl E n k = some j := by
  intro n
  induction n with
  | zero => intro k m a b; omega
  | succ n ih =>
    intro k m a b hm
    unfold searchBin
    split_ifs with hc
    · exact ⟨k, rfl⟩
    · rcases Nat.lt_or_ge k m with hk | hk
      · exact ih (k + 1) m (by omega) (by omega) hm
      · have : m = k := by omega
        subst this
        exact absurd hm hc

/-- A mesh exists only for energies below 126 MeV. -/
theorem total_le (h : Double fl) {E : ℝ} {n : Nat} (hn : total fl E = some n) : E < 126 := by
  unfold total at hn
  cases hs : searchBin fl E 2500 0 with
  | none => simp [hs] at hn
  | some m =>
    have a := (search_spec E 2500 0 m hs).2.1
    have b := search_bound E 2500 0 m hs
    have c := (binEnergy_range h m (by omega)).2
    have hm : (m : ℝ) ≤ 2499 := by exact_mod_cast (by omega : m ≤ 2499)
    norm_num at c
    linarith

theorem firstBelow_spec (ex : Nat → ℝ) (top : ℝ) : ∀ n k m, firstBelow ex top n k = some m → k ≤ m ∧ m < k + n ∧ ∀ j, k ≤ j → j < m → top ≤ ex j := by
  intro n
  induction n with
  | zero => intro k m h; simp [firstBelow] at h
  | succ n ih =>
    intro k m h
    unfold firstBelow at h
    split_ifs at h with hc
    · have : k = m := by simpa using h
      subst this
      exact ⟨le_rfl, by omega, fun j a b => by omega⟩
    · obtain ⟨a, b, c⟩ := ih _ _ h
      refine ⟨by omega, by omega, fun j hj hjm => ?_⟩
      rcases Nat.lt_or_ge k j with hk | hk
      · exact c j (by omega) hjm
      · have : j = k := by omega
        subst this
        exact not_lt.1 hc

/-- A bin of the continuum is not the last one, and the next bin is not below the highest level. -/
theorem contBins_spec (h : Double fl) {E top : ℝ} {n k : Nat} (hn : total fl E = some n) (hk : k < contBins fl E n top) :
    k + 1 < n ∧ top ≤ excitation fl E n (k + 1) := by
  unfold contBins at hk
  split_ifs at hk with h0 h1
  · exact ⟨by omega, h0 ▸ excitation_nonneg h hn _⟩
  · cases hf : firstBelow (excitation fl E n) top (n - 1) 1 with
    | none => simp [hf] at hk
    | some m =>
      simp only [hf] at hk
      obtain ⟨a, b, c⟩ := firstBelow_spec _ _ _ _ _ hf
      exact ⟨by omega, c (k + 1) (by omega) (by omega)⟩
  · omega

/-- Half of a number that is not tiny. -/
theorem IsDouble.half {x : ℝ} (hx : IsDouble x) (h : 1 / 64 ≤ x) : IsDouble (x * (1 / 2)) := by
  obtain ⟨m, e, hm, he, rfl⟩ := hx
  rcases lt_or_ge (-1074) e with h1 | h1
  · refine ⟨m, e - 1, hm, by omega, ?_⟩
    rw [zpow_sub₀ (by norm_num), zpow_one]; ring
  · have : e = -1074 := by omega
    subst this
    exfalso
    have a : (m : ℝ) ≤ 2 ^ 53 := by
      have : m ≤ 2 ^ 53 := (le_abs_self m).trans hm.le
      exact_mod_cast this
    have b : (2 : ℝ) ^ (-1074 : Int) ≤ 2 ^ (-100 : Int) := zpow_le_zpow_right₀ (by norm_num) (by norm_num)
    have c : (m : ℝ) * 2 ^ (-1074 : Int) ≤ 2 ^ 53 * 2 ^ (-100 : Int) :=
      mul_le_mul a b (by positivity) (by positivity)
    norm_num at c h
    linarith

/-- The mean of two numbers, the larger first: not above the larger one. -/
theorem mean_le (h : Double fl) {a b : ℝ} (ha : IsDouble a) (hba : b ≤ a) : fl (fl (b + a) * (1 / 2)) ≤ a := by
  refine h.le_of ha ?_
  have : fl (b + a) ≤ 2 * a := h.le_of ha.double (by linarith)
  linarith

theorem mean_ge (h : Double fl) {a b : ℝ} (hb : IsDouble b) (hba : b ≤ a) : b ≤ fl (fl (b + a) * (1 / 2)) := by
  refine h.ge_of hb ?_
  have : 2 * b ≤ fl (b + a) := h.ge_of hb.double (by linarith)
  linarith

/-- The highest level never cuts a bin of the continuum. -/
theorem lowerEnd_eq (h : Double fl) {E top : ℝ} {n k : Nat} (hn : total fl E = some n) (hk : k < contBins fl E n top) :
    lowerEnd fl (excitation fl E n) top k = fl (fl (excitation fl E n (k + 1) + excitation fl E n k) * (1 / 2)) := by
  have a := (contBins_spec h hn hk).2
  exact max_eq_left (a.trans (mean_ge h (excitation_double h E n _) (excitation_anti h hn (by omega))))

theorem lowerEnd_ge (h : Double fl) {E top : ℝ} {n k : Nat} (hn : total fl E = some n) (hk : k < contBins fl E n top) :
    excitation fl E n (k + 1) ≤ lowerEnd fl (excitation fl E n) top k := by
  rw [lowerEnd_eq h hn hk]
  exact mean_ge h (excitation_double h E n _) (excitation_anti h hn (by omega))

theorem lowerEnd_le (h : Double fl) {E top : ℝ} {n k : Nat} (hn : total fl E = some n) (hk : k < contBins fl E n top) :
    lowerEnd fl (excitation fl E n) top k ≤ excitation fl E n k := by
  rw [lowerEnd_eq h hn hk]
  exact mean_le h (excitation_double h E n _) (excitation_anti h hn (by omega))

theorem upperEnd_ge (h : Double fl) {E : ℝ} {n : Nat} (hn : total fl E = some n) (k : Nat) :
    excitation fl E n k ≤ upperEnd fl (excitation fl E n) k := by
  unfold upperEnd
  split_ifs with h0
  · rw [h0]
  · rw [add_comm]
    exact mean_ge h (excitation_double h E n _) (excitation_anti h hn (by omega))

theorem lowerEnd_double (h : Double fl) {E top : ℝ} {n k : Nat} (hn : total fl E = some n) (hk : k < contBins fl E n top) :
    IsDouble (lowerEnd fl (excitation fl E n) top k) := by
  rw [lowerEnd_eq h hn hk]; exact h.float _

/-- The state reached is not below the lower end of its bin. -/
theorem within_ge (h : Double fl) {E top : ℝ} {n k : Nat} (hn : total fl E = some n) (hk : k < contBins fl E n top) {r : ℝ} (hr : 0 ≤ r) :
    lowerEnd fl (excitation fl E n) top k ≤ within fl (excitation fl E n) top k r := by
  have a := (lowerEnd_le h hn hk).trans (upperEnd_ge h hn k)
  have b : 0 ≤ fl (fl (upperEnd fl (excitation fl E n) k - lowerEnd fl (excitation fl E n) top k) * r) :=
    h.nonneg (mul_nonneg (h.nonneg (by linarith)) hr)
  exact h.ge_of (lowerEnd_double h hn hk) (by linarith)

/-- In the first bin the state reached is not above the maximum energy, whatever the roundings. -/
theorem within_first (h : Double fl) {E top : ℝ} {n : Nat} (hn : total fl E = some n) (hk : 0 < contBins fl E n top) {r : ℝ}
    (hr1 : r ≤ 1) : within fl (excitation fl E n) top 0 r ≤ excitation fl E n 0 := by
  have e0 : upperEnd fl (excitation fl E n) 0 = excitation fl E n 0 := by simp [upperEnd]
  have hb : IsDouble (energyBin * (1 / 2)) := by rw [← fl_half_bin h]; exact h.float _
  have big : energyBin * (1 / 2) ≤ excitation fl E n 0 := by
    have hlt : 0 + 1 < n := (contBins_spec h hn hk).1
    have := total_spec hn hlt
    simp only [excitation, hlt, if_true]
    rw [fl_half_bin h]
    refine h.ge_of hb ?_
    have : 0 ≤ fl (E - binEnergy fl 0) := h.nonneg (by linarith)
    linarith
  have v := bin_value.1
  norm_num at v
  have dbl := excitation_double h E n 0
  have l1 := lowerEnd_le h hn hk
  have l2 : excitation fl E n 0 * (1 / 2) ≤ lowerEnd fl (excitation fl E n) top 0 := by
    rw [lowerEnd_eq h hn hk]
    refine h.ge_of (dbl.half (by linarith)) ?_
    have : excitation fl E n 0 ≤ fl (excitation fl E n (0 + 1) + excitation fl E n 0) :=
      h.ge_of dbl (by linarith [excitation_nonneg h hn (0 + 1)])
    linarith
  have st := sterbenz dbl (lowerEnd_double h hn hk) (by linarith) l1 (by linarith)
  unfold within
  rw [e0, h.fix st]
  have : fl ((excitation fl E n 0 - lowerEnd fl (excitation fl E n) top 0) * r) ≤
      excitation fl E n 0 - lowerEnd fl (excitation fl E n) top 0 := h.le_of st (by nlinarith)
  exact h.le_of dbl (by linarith)

/-- In the other bins it is below the maximum energy by almost half a bin. -/
theorem within_next (h : Double fl) {E top : ℝ} {n k : Nat} (hn : total fl E = some n) (hk : k < contBins fl E n top) (h1 : 1 ≤ k) {r : ℝ}
    (hr : 0 ≤ r) (hr1 : r ≤ 1) : within fl (excitation fl E n) top k r ≤ E - 0.0247 := by
  have hkn := (contBins_spec h hn hk).1
  have hE := total_le h hn
  have hE0 : 0 ≤ E := by
    have a := total_spec hn hkn
    have b := binEnergy_mono h (Nat.zero_le k)
    rw [binEnergy_zero h] at b
    have := bin_value.1
    norm_num at this
    linarith
  have hl := (lowerEnd_le h hn hk).trans (upperEnd_ge h hn k)
  have lo : 0 ≤ lowerEnd fl (excitation fl E n) top k := (excitation_nonneg h hn _).trans (lowerEnd_ge h hn hk)
  have ek := excitation_one_le h (by linarith) hn h1 hkn
  have ek0 := excitation_nonneg h hn k
  have e0 := (excitation_anti h hn (Nat.zero_le (k - 1))).trans (excitation_zero_le h hE0 (by linarith) n)
  have e00 := excitation_nonneg h hn (k - 1)
  have up : upperEnd fl (excitation fl E n) k ≤ E - 0.02479 := by
    have : ¬ k = 0 := by omega
    simp only [upperEnd, this, if_false]
    norm_num at ek e0
    have a := abs_le.1 (err256 h (x := excitation fl E n (k - 1) + excitation fl E n k) (by rw [abs_le]; constructor <;> linarith))
    norm_num at a
    have b := abs_le.1 (err256 h (x := fl (excitation fl E n (k - 1) + excitation fl E n k) * (1 / 2))
      (by rw [abs_le]; constructor <;> linarith))
    norm_num at b ⊢
    linarith
  norm_num at up
  generalize hu : upperEnd fl (excitation fl E n) k = u at *
  generalize hw : lowerEnd fl (excitation fl E n) top k = w at *
  have d := abs_le.1 (err256 h (x := u - w) (by rw [abs_le]; constructor <;> linarith))
  have d0 : 0 ≤ fl (u - w) := h.nonneg (by linarith)
  have t : fl (fl (u - w) * r) ≤ fl (u - w) := h.le_of (h.float _) (by nlinarith)
  have t0 : 0 ≤ fl (fl (u - w) * r) := h.nonneg (mul_nonneg d0 hr)
  norm_num at d
  have e := abs_le.1 (err256 h (x := w + fl (fl (u - w) * r)) (by rw [abs_le]; constructor <;> linarith))
  unfold within
  rw [hu, hw]
  norm_num at e ⊢
  linarith

end CGMF.Fp

import Verif.Props.FloatIsotropy
import Verif.Props.FloatDecay

/-!
# C155: the state reached in the continuum is uniform in its bin, over all random bits
-/

namespace CGMF.Props

open CGMF CGMF.Fp CGMF.Twist CGMF.Pick

variable {fl : ℝ → ℝ}

/-! ## The end of the bin -/

/-- A product with a number below one is below, after rounding too. -/
theorem times_below (h : Double fl) {d r : ℝ} (hd : IsDouble d) (big : (2 : ℝ) ^ (-900 : Int) ≤ d) (hr : IsDouble r) (r1 : r < 1) :
    fl (d * r) < d := by
  have d0 : 0 < d := lt_of_lt_of_le (by positivity) big
  obtain ⟨n, hn1, hn2⟩ := exists_mem_Ico_zpow d0 (show (1 : ℝ) < 2 by norm_num)
  have hn : -900 < n + 1 := (zpow_lt_zpow_iff_right₀ (show (1 : ℝ) < 2 by norm_num)).1 (big.trans_lt hn2)
  obtain ⟨m, hm⟩ := hd.multiple (e := n - 52) (by
    rw [abs_of_pos d0]
    refine le_of_eq_of_le ?_ hn1
    congr 1; push_cast; ring)
  have q := below_one hr r1
  set u : ℝ := 2 ^ (n - 105) with hu
  have u0 : 0 < u := by positivity
  have e1 : (2 : ℝ) ^ (n - 52) = 2 ^ 53 * u := by
    rw [hu, ← zpow_natCast, ← zpow_add₀ (by norm_num)]; congr 1; push_cast; ring
  have e2 : (2 : ℝ) ^ (n - 53) = 2 ^ 52 * u := by
    rw [hu, ← zpow_natCast, ← zpow_add₀ (by norm_num)]; congr 1; push_cast; ring
  have e3 : (2 : ℝ) ^ n = 2 ^ 105 * u := by
    rw [hu, ← zpow_natCast, ← zpow_add₀ (by norm_num)]; congr 1; push_cast; ring
  have e4 : (2 : ℝ) ^ (n + 1) = 2 ^ 106 * u := by
    rw [hu, ← zpow_natCast, ← zpow_add₀ (by norm_num)]; congr 1; push_cast; ring
  rw [e1] at hm
  have y : d * r ≤ m * (2 ^ 53 * u) - m * u := by
    have : d * r ≤ d * (1 - 1 / 2 ^ 53) := mul_le_mul_of_nonneg_left q d0.le
    rw [hm] at this ⊢
    refine this.trans (le_of_eq ?_)
    field_simp
  have m1 : (2 : ℝ) ^ 52 ≤ m := by
    rw [hm, e3] at hn1
    by_contra hc
    rw [not_le] at hc
    have := mul_lt_mul_of_pos_right hc (show 0 < 2 ^ 53 * u by positivity)
    norm_num at this hn1
    linarith
  have m2 : (m : ℝ) < 2 ^ 53 := by
    rw [hm, e4] at hn2
    by_contra hc
    rw [not_lt] at hc
    have := mul_le_mul_of_nonneg_right hc (show 0 ≤ 2 ^ 53 * u by positivity)
    norm_num at this hn2
    linarith
  have m1' : (2 : Int) ^ 52 ≤ m := by exact_mod_cast m1
  have m2' : m < (2 : Int) ^ 53 := by exact_mod_cast m2
  rcases m1'.eq_or_lt with e | lt
  · have P : IsDouble (((2 ^ 53 - 1 : Int) : ℝ) * (2 : ℝ) ^ (n - 53)) := isFloat_mul (by norm_num) (by omega) (by norm_num)
    have le := h.le_of P (x := d * r) (by
      rw [e2]
      have : (m : ℝ) = 2 ^ 52 := by rw [← e]; norm_num
      rw [this] at y
      refine y.trans (le_of_eq ?_)
      push_cast; ring)
    refine le.trans_lt ?_
    rw [hm, e2, ← e]
    push_cast
    nlinarith
  · have P : IsDouble (((m - 1 : Int) : ℝ) * (2 : ℝ) ^ (n - 52)) := isFloat_mul (by rw [abs_le]; constructor <;> omega) (by omega) (by norm_num)
    have pv : ((m - 1 : Int) : ℝ) * (2 : ℝ) ^ (n - 52) = d - 2 ^ 53 * u := by rw [e1, hm]; push_cast; ring
    rw [pv] at P
    have lt' : (2 : ℝ) ^ 52 + 1 ≤ m := by exact_mod_cast lt
    have mu : (2 ^ 52 + 1) * u ≤ m * u := mul_le_mul_of_nonneg_right lt' u0.le
    by_contra hc
    rw [not_lt] at hc
    rcases le_or_gt (d * r) (d - 2 ^ 53 * u) with c | c
    · have := h.le_of P c
      norm_num at this
      linarith
    · have near := h.near (d * r) _ P
      rw [abs_of_nonneg (show 0 ≤ fl (d * r) - d * r by nlinarith), abs_of_nonpos (by linarith)] at near
      norm_num at near y mu
      linarith

/-- An energy drawn between two numbers stays between them. -/
theorem draw_inside (h : Double fl) {lo hi r : ℝ} (hlo : IsDouble lo) (hhi : IsDouble hi) (w : (2 : ℝ) ^ (-900 : Int) ≤ hi - lo)
    (hr : IsDouble r) (r0 : 0 ≤ r) (r1 : r < 1) : lo ≤ fl (lo + fl (fl (hi - lo) * r)) ∧ fl (lo + fl (fl (hi - lo) * r)) ≤ hi := by
  have d : (2 : ℝ) ^ (-900 : Int) ≤ fl (hi - lo) := h.ge_of (isFloat_zpow (by norm_num) (by norm_num)) w
  have d0 : 0 ≤ fl (hi - lo) := le_trans (by positivity) d
  have t := times_below h (h.float (hi - lo)) d hr r1
  have t0 : 0 ≤ fl (fl (hi - lo) * r) := h.nonneg (mul_nonneg d0 r0)
  refine ⟨h.ge_of hlo (by linarith), h.le_of hhi ?_⟩
  by_contra hc
  rw [not_le] at hc
  have near := h.near (hi - lo) _ (h.float (fl (hi - lo) * r))
  rw [abs_of_nonneg (by linarith), abs_of_nonneg (by linarith)] at near
  linarith

/-! ## The bins of the mesh -/

/-- Neighbouring energies of the mesh, and the last one and zero, are apart. -/
theorem mesh_gap (h : Double fl) {E : ℝ} {n k : Nat} (hn : Fp.total fl E = some n) (hk : k + 1 < n) :
    0.0248 ≤ excitation fl E n k - excitation fl E n (k + 1) := by
  have hE := total_le h hn
  have bk := total_spec hn hk
  have b0 : 0 ≤ binEnergy fl k := by
    have a := binEnergy_mono h (Nat.zero_le k)
    rw [binEnergy_zero h] at a
    have := bin_value.1
    norm_num at this
    linarith
  obtain ⟨v1, v2⟩ := bin_value
  norm_num at v1 v2
  have a1 := abs_le.1 (err256 h (x := E - binEnergy fl k) (by rw [abs_le]; constructor <;> linarith))
  have a0 : 0 ≤ fl (E - binEnergy fl k) := h.nonneg (by linarith)
  norm_num at a1
  have a2 := abs_le.1 (err256 h (x := fl (E - binEnergy fl k) + energyBin * (1 / 2)) (by rw [abs_le]; constructor <;> linarith))
  norm_num at a2
  have ek : excitation fl E n k = fl (fl (E - binEnergy fl k) + energyBin * (1 / 2)) := by
    simp only [excitation, hk, if_true, fl_half_bin h]
  rw [ek]
  by_cases hk2 : k + 1 + 1 < n
  · have bs := total_spec hn hk2
    have eb : binEnergy fl (k + 1) = fl (binEnergy fl k + energyBin) := rfl
    have c0 := abs_le.1 (err256 h (x := binEnergy fl k + energyBin) (by rw [abs_le]; constructor <;> linarith))
    rw [← eb] at c0
    norm_num at c0
    have c1 := abs_le.1 (err256 h (x := E - binEnergy fl (k + 1)) (by rw [abs_le]; constructor <;> linarith))
    norm_num at c1
    have c2 := abs_le.1 (err256 h (x := fl (E - binEnergy fl (k + 1)) + energyBin * (1 / 2)) (by rw [abs_le]; constructor <;> linarith))
    norm_num at c2
    have ek2 : excitation fl E n (k + 1) = fl (fl (E - binEnergy fl (k + 1)) + energyBin * (1 / 2)) := by
      simp only [excitation, hk2, if_true, fl_half_bin h]
    rw [ek2]
    norm_num
    linarith
  · have ek2 : excitation fl E n (k + 1) = 0 := by simp only [excitation, hk2, if_false]
    rw [ek2]
    norm_num
    linarith

/-- Facts on the ends of a bin. -/
theorem bin_ends (h : Double fl) {E top : ℝ} {n k : Nat} (hn : Fp.total fl E = some n) (hk : k < contBins fl E n top) :
    IsDouble (lowerEnd fl (excitation fl E n) top k) ∧ IsDouble (upperEnd fl (excitation fl E n) k) ∧
    0 ≤ lowerEnd fl (excitation fl E n) top k ∧ upperEnd fl (excitation fl E n) k ≤ 127 ∧
    0.0123 ≤ upperEnd fl (excitation fl E n) k - lowerEnd fl (excitation fl E n) top k := by
  have hkn := (contBins_spec h hn hk).1
  have hE := total_le h hn
  have hE0 : 0 ≤ E := by
    have a := total_spec hn hkn
    have b := binEnergy_mono h (Nat.zero_le k)
    rw [binEnergy_zero h] at b
    have := bin_value.1
    norm_num at this
    linarith
  have gap := mesh_gap h hn hkn
  have up := upperEnd_ge h hn k (E := E)
  have n1 := excitation_nonneg h hn (k + 1)
  have top0 := excitation_zero_le h hE0 (by linarith) n
  have ek := excitation_anti h hn (Nat.zero_le k)
  norm_num at gap top0
  refine ⟨lowerEnd_double h hn hk, ?_, n1.trans (lowerEnd_ge h hn hk), ?_, ?_⟩
  · unfold upperEnd
    split_ifs
    · exact excitation_double h E n _
    · exact h.float _
  · unfold upperEnd
    split_ifs with h0
    · linarith
    · have a := mean_le h (excitation_double h E n (k - 1)) (excitation_anti h hn (show k - 1 ≤ k by omega))
      have b := excitation_anti h hn (Nat.zero_le (k - 1))
      rw [add_comm] at a
      linarith
  · have a1 := abs_le.1 (err256 h (x := excitation fl E n (k + 1) + excitation fl E n k) (by rw [abs_le]; constructor <;> linarith))
    norm_num at a1
    have a2 := abs_le.1 (err256 h (x := fl (excitation fl E n (k + 1) + excitation fl E n k) * (1 / 2)) (by
      rw [abs_le]; constructor <;> linarith))
    norm_num at a2
    rw [lowerEnd_eq h hn hk]
    norm_num
    linarith

/-- **C155**, the bins: they end at the midpoints between neighbouring energies of the mesh, up to roundings, and the first one ends at
its own energy; no bin reaches below the highest level. -/
theorem C155_ends (h : Double fl) {E top : ℝ} {n k : Nat} (hn : Fp.total fl E = some n) (hk : k < contBins fl E n top) :
    |lowerEnd fl (excitation fl E n) top k - (excitation fl E n k + excitation fl E n (k + 1)) / 2| ≤ 1 / 2 ^ 45 ∧
    top ≤ lowerEnd fl (excitation fl E n) top k ∧
    (k = 0 → upperEnd fl (excitation fl E n) k = excitation fl E n 0) ∧
    (0 < k → |upperEnd fl (excitation fl E n) k - (excitation fl E n (k - 1) + excitation fl E n k) / 2| ≤ 1 / 2 ^ 45) := by
  have hkn := (contBins_spec h hn hk).1
  have hE := total_le h hn
  have hE0 : 0 ≤ E := by
    have a := total_spec hn hkn
    have b := binEnergy_mono h (Nat.zero_le k)
    rw [binEnergy_zero h] at b
    have := bin_value.1
    norm_num at this
    linarith
  have top0 := excitation_zero_le h hE0 (by linarith) n
  norm_num at top0
  have lo : ∀ i, 0 ≤ excitation fl E n i := excitation_nonneg h hn
  have hi : ∀ i, excitation fl E n i ≤ 127 := fun i => by
    have := excitation_anti h hn (Nat.zero_le i)
    linarith
  have mean : ∀ i j, |fl (fl (excitation fl E n i + excitation fl E n j) * (1 / 2)) - (excitation fl E n i + excitation fl E n j) / 2| ≤ 1 / 2 ^ 45 := by
    intro i j
    have li := lo i
    have lj := lo j
    have ui := hi i
    have uj := hi j
    have a1 := abs_le.1 (err256 h (x := excitation fl E n i + excitation fl E n j) (by rw [abs_le]; constructor <;> linarith))
    norm_num at a1
    have a2 := abs_le.1 (err256 h (x := fl (excitation fl E n i + excitation fl E n j) * (1 / 2)) (by
      rw [abs_le]; constructor <;> linarith))
    norm_num at a2
    rw [abs_le]
    norm_num
    constructor <;> linarith [a1.1, a1.2, a2.1, a2.2]
  refine ⟨?_, le_max_right _ _, fun e => by simp [upperEnd, e], fun k0 => ?_⟩
  · rw [lowerEnd_eq h hn hk, add_comm (excitation fl E n k)]
    exact mean _ _
  · unfold upperEnd
    rw [if_neg (by omega)]
    exact mean _ _

/-- **C155**: whatever the random bits, the state reached in the continuum lies in its bin, also after rounding. -/
theorem C155_inside (h : Double fl) {E top : ℝ} {n k : Nat} (hn : Fp.total fl E = some n) (hk : k < contBins fl E n top) (w : Pair) :
    lowerEnd fl (excitation fl E n) top k ≤ within fl (excitation fl E n) top k (rng fl w) ∧
    within fl (excitation fl E n) top k (rng fl w) ≤ upperEnd fl (excitation fl E n) k := by
  obtain ⟨d1, d2, _, _, wd⟩ := bin_ends h hn hk
  obtain ⟨r, r0, r1⟩ := rng_range h w
  refine draw_inside h d1 d2 (le_trans ?_ wd) r r0 r1
  have : (2 : ℝ) ^ (-900 : Int) ≤ 2 ^ (-10 : Int) := zpow_le_zpow_right₀ (by norm_num) (by norm_num)
  refine this.trans ?_
  norm_num

/-- The chance of an event that is, but for its ends, an interval of the energies of a bin. -/
theorem bin_chance (h : Double fl) {E top x y : ℝ} {n k : Nat} (hn : Fp.total fl E = some n) (hk : k < contBins fl E n top)
    (y0 : lowerEnd fl (excitation fl E n) top k ≤ y) (yx : y ≤ x) (x1 : x ≤ upperEnd fl (excitation fl E n) k) {P : Pair → Prop}
    (out : ∀ w, P w → y ≤ within fl (excitation fl E n) top k (rng fl w) ∧ within fl (excitation fl E n) top k (rng fl w) ≤ x)
    (inn : ∀ w, y < within fl (excitation fl E n) top k (rng fl w) → within fl (excitation fl E n) top k (rng fl w) < x → P w) :
    |chance P - (x - y) / (upperEnd fl (excitation fl E n) k - lowerEnd fl (excitation fl E n) top k)| ≤ 1 / 2 ^ 36 := by
  obtain ⟨-, -, l0, u1, wd⟩ := bin_ends h hn hk
  unfold within at out inn
  generalize lowerEnd fl (excitation fl E n) top k = lo at *
  generalize upperEnd fl (excitation fl E n) k = hi at *
  norm_num at wd
  have W0 : 0 < hi - lo := by linarith
  have near : ∀ w, |fl (lo + fl (fl (hi - lo) * rng fl w)) - (lo + (hi - lo) * ((value w : ℝ) / 2 ^ 64))| ≤ 4 / 2 ^ 46 := by
    intro w
    obtain ⟨-, r0, r1⟩ := rng_range h w
    have e0 := abs_le.1 (rng_near h w)
    generalize (value w : ℝ) / 2 ^ 64 = v at *
    generalize rng fl w = r at *
    have a := abs_le.1 (err256 h (x := hi - lo) (by rw [abs_le]; constructor <;> linarith))
    have d0 : 0 ≤ fl (hi - lo) := h.nonneg W0.le
    norm_num at a e0
    have p0 : 0 ≤ fl (hi - lo) * r := mul_nonneg d0 r0
    have p1 : fl (hi - lo) * r ≤ fl (hi - lo) := mul_le_of_le_one_right d0 r1.le
    have b := abs_le.1 (err256 h (x := fl (hi - lo) * r) (by rw [abs_le]; constructor <;> linarith))
    norm_num at b
    have q0 : 0 ≤ fl (fl (hi - lo) * r) := h.nonneg p0
    have c := abs_le.1 (err256 h (x := lo + fl (fl (hi - lo) * r)) (by rw [abs_le]; constructor <;> linarith))
    norm_num at c
    have d : |fl (hi - lo) * r - (hi - lo) * v| ≤ 2 / 2 ^ 46 := by
      have e : fl (hi - lo) * r - (hi - lo) * v = (fl (hi - lo) - (hi - lo)) * r + (hi - lo) * (r - v) := by ring
      rw [e]
      refine (abs_add_le _ _).trans ?_
      rw [abs_mul, abs_mul, abs_of_pos W0, abs_of_nonneg r0]
      have g1 : |fl (hi - lo) - (hi - lo)| ≤ 1 / 2 ^ 46 := by rw [abs_le]; norm_num; constructor <;> linarith
      have g2 : |r - v| ≤ 1 / 2 ^ 53 := by rw [abs_le]; norm_num; constructor <;> linarith
      have g3 : |fl (hi - lo) - (hi - lo)| * r ≤ 1 / 2 ^ 46 * 1 := mul_le_mul g1 r1.le r0 (by positivity)
      have g4 : (hi - lo) * |r - v| ≤ 128 * (1 / 2 ^ 53) := mul_le_mul (by linarith) g2 (abs_nonneg _) (by norm_num)
      norm_num at g3 g4 ⊢
      linarith
    have d := abs_le.1 d
    rw [abs_le]
    norm_num at d ⊢
    constructor <;> linarith [d.1, d.2, c.1, c.2, b.1, b.2]
  have key := chance_interval (E := P) (a := (y - lo) / (hi - lo)) (b := (x - lo) / (hi - lo))
    (ε := 4 / 2 ^ 46 / (hi - lo)) (div_nonneg (by linarith) W0.le) (by gcongr) (by rw [div_le_one W0]; linarith) (by positivity) ?_ ?_
  · rw [← sub_div, show x - lo - (y - lo) = x - y by ring] at key
    refine key.trans ?_
    have : 4 / 2 ^ 46 / (hi - lo) ≤ 4 / 2 ^ 46 / 0.0123 := div_le_div_of_nonneg_left (by positivity) (by norm_num) (by norm_num; linarith)
    norm_num at this ⊢
    linarith
  · intro w hw
    have a := abs_le.1 (near w)
    obtain ⟨o1, o2⟩ := out w hw
    generalize (value w : ℝ) / 2 ^ 64 = v at *
    constructor
    · rw [← sub_div, div_le_iff₀ W0]
      linarith [a.2]
    · rw [← add_div, le_div_iff₀ W0]
      linarith [a.1]
  · intro w w1 w2
    have a := abs_le.1 (near w)
    refine inn w ?_ ?_
    all_goals generalize (value w : ℝ) / 2 ^ 64 = v at *
    · rw [← add_div, div_lt_iff₀ W0] at w1
      linarith [a.1]
    · rw [← sub_div, lt_div_iff₀ W0] at w2
      linarith [a.2]

/-- **C155**: over all random bits, the state reached in the continuum is uniform in its bin. -/
theorem C155_uniform (h : Double fl) {E top x : ℝ} {n k : Nat} (hn : Fp.total fl E = some n) (hk : k < contBins fl E n top)
    (x0 : lowerEnd fl (excitation fl E n) top k ≤ x) (x1 : x ≤ upperEnd fl (excitation fl E n) k) :
    |chance (fun w => within fl (excitation fl E n) top k (rng fl w) ≤ x) -
      (x - lowerEnd fl (excitation fl E n) top k) / (upperEnd fl (excitation fl E n) k - lowerEnd fl (excitation fl E n) top k)| ≤ 1 / 2 ^ 36 :=
  bin_chance h hn hk le_rfl x0 x1 (fun w hw => ⟨(C155_inside h hn hk w).1, hw⟩) fun _ _ hw => hw.le

/-- A nucleus with 8 MeV and only its ground state: half of the random bits give a state in the lower half of the first bin. -/
example (h : Double fl) : ∃ n, Fp.total fl 8 = some n ∧ 0 < contBins fl 8 n 0 ∧
    |chance (fun w => within fl (excitation fl 8 n) 0 0 (rng fl w) ≤
      (lowerEnd fl (excitation fl 8 n) 0 0 + upperEnd fl (excitation fl 8 n) 0) / 2) - 1 / 2| ≤ 1 / 2 ^ 36 := by
  obtain ⟨n, hn⟩ := (C131_mesh h 8).1 (by norm_num)
  have n2 := Fp.total_ge (by norm_num) h hn
  have hk : 0 < contBins fl 8 n 0 := by
    simp only [contBins, if_true]
    omega
  refine ⟨n, hn, hk, ?_⟩
  have g := (bin_ends h hn hk).2.2.2.2
  norm_num at g
  have := C155_uniform h hn hk (x := (lowerEnd fl (excitation fl 8 n) 0 0 + upperEnd fl (excitation fl 8 n) 0) / 2) (by linarith) (by linarith)
  have e : ((lowerEnd fl (excitation fl 8 n) 0 0 + upperEnd fl (excitation fl 8 n) 0) / 2 - lowerEnd fl (excitation fl 8 n) 0 0) /
      (upperEnd fl (excitation fl 8 n) 0 - lowerEnd fl (excitation fl 8 n) 0 0) = 1 / 2 := by
    rw [div_eq_iff (by linarith)]; ring
  rwa [e] at this

end CGMF.Props

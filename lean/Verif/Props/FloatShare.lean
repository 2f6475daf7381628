import Verif.Model.FloatShare
import Verif.Props.FloatNeutron
import Verif.Props.Sampling
import Verif.Props.ShareSlopes

/-!
# C147: energy balance of a fission in double arithmetic

Readable from the statements with `Model/FloatShare.lean` (what the code computes), `Model/Float.lean` (division) and
`Spec/Float.lean` (rounding).
-/

namespace CGMF.Props

open CGMF CGMF.Fp

variable {fl : ℝ → ℝ}

/-- Positive numbers that agree up to `k` roundings. -/
def Agree (k : Nat) (x y : ℝ) : Prop := 0 < x ∧ 0 < y ∧ y * (1 - 1 / 2 ^ 53) ^ k ≤ x ∧ x * (1 - 1 / 2 ^ 53) ^ k ≤ y

theorem agree_refl {x : ℝ} (h : 0 < x) : Agree 0 x x := ⟨h, h, by simp, by simp⟩

theorem unit_range (k : Nat) : (0 : ℝ) < (1 - 1 / 2 ^ 53) ^ k ∧ (1 - 1 / 2 ^ 53 : ℝ) ^ k ≤ 1 :=
  ⟨pow_pos (by norm_num) k, pow_le_one₀ (by norm_num) (by norm_num)⟩

theorem Agree.symm {k : Nat} {x y : ℝ} (h : Agree k x y) : Agree k y x := ⟨h.2.1, h.1, h.2.2.2, h.2.2.1⟩

theorem Agree.mono {j k : Nat} {x y : ℝ} (h : Agree j x y) (hjk : j ≤ k) : Agree k x y := by
  have e : (1 - 1 / 2 ^ 53 : ℝ) ^ k ≤ (1 - 1 / 2 ^ 53) ^ j := pow_le_pow_of_le_one (by norm_num) (by norm_num) hjk
  exact ⟨h.1, h.2.1, (mul_le_mul_of_nonneg_left e h.2.1.le).trans h.2.2.1, (mul_le_mul_of_nonneg_left e h.1.le).trans h.2.2.2⟩

theorem Agree.mul {j k : Nat} {x y a b : ℝ} (h : Agree j x y) (g : Agree k a b) : Agree (j + k) (x * a) (y * b) := by
  obtain ⟨h1, h2, h3, h4⟩ := h
  obtain ⟨g1, g2, g3, g4⟩ := g
  have u := (unit_range j).1
  have v := (unit_range k).1
  refine ⟨mul_pos h1 g1, mul_pos h2 g2, ?_, ?_⟩
  · rw [pow_add]
    calc y * b * ((1 - 1 / 2 ^ 53) ^ j * (1 - 1 / 2 ^ 53) ^ k) = (y * (1 - 1 / 2 ^ 53) ^ j) * (b * (1 - 1 / 2 ^ 53) ^ k) := by ring
      _ ≤ x * a := mul_le_mul h3 g3 (mul_nonneg g2.le v.le) h1.le
  · rw [pow_add]
    calc x * a * ((1 - 1 / 2 ^ 53) ^ j * (1 - 1 / 2 ^ 53) ^ k) = (x * (1 - 1 / 2 ^ 53) ^ j) * (a * (1 - 1 / 2 ^ 53) ^ k) := by ring
      _ ≤ y * b := mul_le_mul h4 g4 (mul_nonneg g1.le v.le) h2.le

theorem Agree.inv {k : Nat} {x y : ℝ} (h : Agree k x y) : Agree k x⁻¹ y⁻¹ := by
  obtain ⟨h1, h2, h3, h4⟩ := h
  refine ⟨inv_pos.2 h1, inv_pos.2 h2, ?_, ?_⟩
  · rw [inv_mul_le_iff₀ h2, ← div_eq_mul_inv, le_div_iff₀ h1, mul_comm]; exact h4
  · rw [inv_mul_le_iff₀ h1, ← div_eq_mul_inv, le_div_iff₀ h2, mul_comm]; exact h3

theorem Agree.div {j k : Nat} {x y a b : ℝ} (h : Agree j x y) (g : Agree k a b) : Agree (j + k) (x / a) (y / b) := by
  rw [div_eq_mul_inv, div_eq_mul_inv]; exact h.mul g.inv

theorem Agree.add {k : Nat} {x y a b : ℝ} (h : Agree k x y) (g : Agree k a b) : Agree k (x + a) (y + b) := by
  obtain ⟨h1, h2, h3, h4⟩ := h
  obtain ⟨g1, g2, g3, g4⟩ := g
  exact ⟨add_pos h1 g1, add_pos h2 g2, by rw [add_mul]; exact add_le_add h3 g3, by rw [add_mul]; exact add_le_add h4 g4⟩

theorem Agree.trans {j k : Nat} {x y z : ℝ} (h : Agree j x y) (g : Agree k y z) : Agree (j + k) x z := by
  obtain ⟨h1, h2, h3, h4⟩ := h
  obtain ⟨g1, g2, g3, g4⟩ := g
  have u := (unit_range j).1
  have v := (unit_range k).1
  refine ⟨h1, g2, ?_, ?_⟩
  · rw [pow_add]
    calc z * ((1 - 1 / 2 ^ 53) ^ j * (1 - 1 / 2 ^ 53) ^ k) = (z * (1 - 1 / 2 ^ 53) ^ k) * (1 - 1 / 2 ^ 53) ^ j := by ring
      _ ≤ y * (1 - 1 / 2 ^ 53) ^ j := mul_le_mul_of_nonneg_right g3 u.le
      _ ≤ x := h3
  · rw [pow_add]
    calc x * ((1 - 1 / 2 ^ 53) ^ j * (1 - 1 / 2 ^ 53) ^ k) = (x * (1 - 1 / 2 ^ 53) ^ j) * (1 - 1 / 2 ^ 53) ^ k := by ring
      _ ≤ y * (1 - 1 / 2 ^ 53) ^ k := mul_le_mul_of_nonneg_right h4 v.le
      _ ≤ z := g4

/-- One rounding. -/
theorem agree_fl (h : Double fl) {x : ℝ} (hx : (2 : ℝ) ^ (-400 : Int) ≤ x) : Agree 1 (fl x) x := by
  have x0 : 0 < x := lt_of_lt_of_le (by positivity) hx
  have e := abs_le.1 (rel53 h hx)
  norm_num at e
  refine ⟨by linarith, x0, ?_, ?_⟩ <;> norm_num <;> linarith

theorem Agree.round (h : Double fl) {k : Nat} {x y : ℝ} (g : Agree k x y) (hx : (2 : ℝ) ^ (-400 : Int) ≤ x) : Agree (1 + k) (fl x) y :=
  (agree_fl h hx).trans g

/-- Up to five roundings are a relative error of less than six units. -/
theorem Agree.error {x y : ℝ} (h : Agree 5 x y) : |x - y| ≤ y * (6 / 2 ^ 53) := by
  obtain ⟨h1, h2, h3, h4⟩ := h
  norm_num at h3 h4
  rw [abs_le]
  constructor <;> norm_num <;> nlinarith

/-! ## The share of the heavy fragment -/

/-- The share as the formula has it. -/
noncomputable def idealShare (rt al ah : ℝ) : ℝ := ah / (al * rt * rt + ah)

theorem share_range {rt al ah : ℝ} (hr : 0 < rt) (ha : 0 < al) (hb : 0 < ah) : 0 < idealShare rt al ah ∧ idealShare rt al ah < 1 := by
  have : 0 < al * rt * rt := by positivity
  unfold idealShare
  exact ⟨by positivity, (div_lt_one (by linarith)).2 (by linarith)⟩

theorem small_of {x : ℝ} {n : Nat} (hn : n ≤ 400) (h : 1 / 2 ^ n ≤ x) : (2 : ℝ) ^ (-400 : Int) ≤ x := by
  refine le_trans ?_ h
  rw [one_div, ← zpow_natCast, ← zpow_neg]
  exact zpow_le_zpow_right₀ (by norm_num) (by omega)

/-- The parameters of the sharing: level density parameters from 1 to 64, ratio of temperatures from 1/8 to 8. -/
structure Usual (rt al ah : ℝ) : Prop where
  r0 : 1 / 8 ≤ rt
  r1 : rt ≤ 8
  a0 : 1 ≤ al
  a1 : al ≤ 64
  b0 : 1 ≤ ah
  b1 : ah ≤ 64

theorem usual_share {rt al ah : ℝ} (u : Usual rt al ah) : 1 / 2 ^ 13 ≤ idealShare rt al ah ∧ idealShare rt al ah ≤ 1 - 1 / 2 ^ 13 := by
  obtain ⟨r0, r1, a0, a1, b0, b1⟩ := u
  have q1 : al * rt * rt ≤ 64 * 8 * 8 := by gcongr
  have q0 : 1 * (1 / 8) * (1 / 8) ≤ al * rt * rt := by gcongr
  have d : 0 < al * rt * rt + ah := by linarith
  unfold idealShare
  constructor
  · rw [le_div_iff₀ d]; norm_num; nlinarith
  · rw [div_le_iff₀ d]; norm_num; nlinarith

theorem heavy_close (h : Double fl) {rt al ah txe : ℝ} (u : Usual rt al ah) (ht : (2 : ℝ) ^ (-300 : Int) ≤ txe) :
    ∃ eh, heavyShare fl rt txe al ah = some eh ∧ Agree 5 eh (idealShare rt al ah * txe) := by
  have us := usual_share u
  obtain ⟨r0, r1, a0, a1, b0, b1⟩ := u
  have t0 : 0 < txe := lt_of_lt_of_le (by positivity) ht
  have hr : 0 < rt := by linarith
  have g1 : Agree 1 (fl (al * rt)) (al * rt) := agree_fl h (small_of (n := 3) (by norm_num) (by norm_num; nlinarith))
  have l1 : 1 / 8 ≤ fl (al * rt) := h.ge_of (double_of 1 (-3) (by norm_num) (by norm_num) (by norm_num)) (by nlinarith)
  have g2 : Agree 2 (fl (fl (al * rt) * rt)) (al * rt * rt) :=
    (g1.mul (agree_refl hr)).round h (small_of (n := 6) (by norm_num) (by norm_num; nlinarith))
  have l2 := g2.1
  have g3 : Agree 3 (fl (fl (fl (al * rt) * rt) + ah)) (al * rt * rt + ah) :=
    (g2.add ((agree_refl (by linarith)).mono (by norm_num))).round h (small_of (n := 0) (by norm_num) (by norm_num; linarith))
  have l3 := g3.1
  -- the sum is at most 2^13
  have c1 : fl (al * rt) ≤ 2 ^ 9 := h.le_of (double_of 1 9 (by norm_num) (by norm_num) (by norm_num)) (by nlinarith)
  have c2 : fl (fl (al * rt) * rt) ≤ 2 ^ 12 :=
    h.le_of (double_of 1 12 (by norm_num) (by norm_num) (by norm_num)) (by nlinarith)
  have c3 : fl (fl (fl (al * rt) * rt) + ah) ≤ 2 ^ 13 :=
    h.le_of (double_of 1 13 (by norm_num) (by norm_num) (by norm_num)) (by linarith)
  have l4 : 1 / 2 ^ 13 ≤ ah / fl (fl (fl (al * rt) * rt) + ah) := by
    rw [le_div_iff₀ l3]; linarith
  have g4 : Agree 4 (fl (ah / fl (fl (fl (al * rt) * rt) + ah))) (ah / (al * rt * rt + ah)) :=
    (((agree_refl (by linarith : 0 < ah)).div g3).round h (small_of (n := 13) (by norm_num) l4)).mono (by norm_num)
  have l5 : 1 / 2 ^ 13 ≤ fl (ah / fl (fl (fl (al * rt) * rt) + ah)) :=
    h.ge_of (double_of 1 (-13) (by norm_num) (by norm_num) (by norm_num)) l4
  refine ⟨fl (fl (ah / fl (fl (fl (al * rt) * rt) + ah)) * txe), ?_, ?_⟩
  · unfold heavyShare fdiv
    rw [if_neg l3.ne']; rfl
  · unfold idealShare
    refine ((g4.mul (agree_refl t0)).round h ?_).mono (by norm_num)
    have : (2 : ℝ) ^ (-400 : Int) ≤ 1 / 2 ^ 13 * 2 ^ (-300 : Int) := by
      rw [show (1 : ℝ) / 2 ^ 13 = 2 ^ (-13 : Int) by norm_num, ← zpow_add₀ (by norm_num)]
      exact zpow_le_zpow_right₀ (by norm_num) (by norm_num)
    exact this.trans (mul_le_mul l5 ht (by positivity) (by linarith [g4.1]))

/-- What one pass computes: both energies are in range, the heavy one is its ideal share, and both add up to the total. -/
theorem pass_close (h : Double fl) {rt al ah txe : ℝ} (u : Usual rt al ah) (ht : (2 : ℝ) ^ (-300 : Int) ≤ txe) (dt : IsDouble txe) :
    ∃ eh, heavyShare fl rt txe al ah = some eh ∧ txe / 2 ^ 14 ≤ eh ∧ txe / 2 ^ 14 ≤ fl (txe - eh) ∧ eh ≤ txe ∧ fl (txe - eh) ≤ txe ∧
      |eh - idealShare rt al ah * txe| ≤ txe * (6 / 2 ^ 53) ∧ |fl (txe - eh) - (txe - eh)| ≤ txe / 2 ^ 52 := by
  obtain ⟨eh, h1, h2⟩ := heavy_close h u ht
  obtain ⟨s0, s1⟩ := usual_share u
  have t0 : 0 < txe := lt_of_lt_of_le (by positivity) ht
  have e := h2.error
  have e' : idealShare rt al ah * txe * (6 / 2 ^ 53) ≤ txe * (6 / 2 ^ 53) := by
    have : idealShare rt al ah ≤ 1 := s1.trans (by norm_num)
    have := mul_le_mul_of_nonneg_right this t0.le
    have := mul_le_mul_of_nonneg_right this (show (0 : ℝ) ≤ 6 / 2 ^ 53 by norm_num)
    linarith
  have m0 := mul_le_mul_of_nonneg_right s0 t0.le
  have m1 := mul_le_mul_of_nonneg_right s1 t0.le
  have ee := abs_le.1 (e.trans e')
  norm_num at ee m0 m1
  have p0 := h2.1
  have r : |fl (txe - eh) - (txe - eh)| ≤ txe / 2 ^ 52 :=
    err_size h (le_trans (zpow_le_zpow_right₀ (by norm_num) (by norm_num)) ht) (by rw [abs_le]; constructor <;> norm_num <;> linarith)
  have rr := abs_le.1 r
  norm_num at rr
  refine ⟨eh, h1, by norm_num; linarith, by norm_num; linarith, by linarith, h.le_of dt (by linarith), e.trans e', r⟩

/-- Raising the light and lowering the heavy parameter lowers the heavy share, up to the amount by which they do not. -/
theorem share_step {rt a b a' b' η : ℝ} (hr : 0 < rt) (ha : 0 < a) (hb : 0 < b) (ha' : 1 ≤ a') (hb' : 1 ≤ b') (hη : 0 ≤ η)
    (h1 : a - η ≤ a') (h2 : b' ≤ b + η) : idealShare rt a' b' ≤ idealShare rt a b + η := by
  have r2 : 0 < rt * rt := mul_pos hr hr
  have d : 0 < a * (rt * rt) + b := by positivity
  have d' : 0 < a' * (rt * rt) + b' := by positivity
  unfold idealShare
  rw [mul_assoc, mul_assoc, div_add' _ _ _ d.ne', div_le_div_iff₀ d' d]
  have k1 : b' * a - b * a' ≤ η * (a + b) := by nlinarith
  have k2 : rt * rt * (a + b) ≤ (a' * (rt * rt) + b') * (a * (rt * rt) + b) := by
    calc rt * rt * (a + b) ≤ (1 * (rt * rt) + 1) * (a * (rt * rt) + b) := by nlinarith [mul_pos ha r2, mul_pos (mul_pos ha r2) r2]
      _ ≤ _ := mul_le_mul_of_nonneg_right (by nlinarith) d.le
  have k3 := mul_le_mul_of_nonneg_left k1 r2.le
  have k4 := mul_le_mul_of_nonneg_left k2 hη
  nlinarith

/-! ## C147 -/

/-- **C147** (energy available).  For mass excesses up to 256 MeV the total excitation energy the code works with is what is left of the
energy released, the incident energy and the separation energy, up to `2^-41` MeV. -/
theorem C147_available (h : Double fl) {mc ml mh einc sn tke : ℝ} (h1 : |mc| ≤ 256) (h2 : |ml| ≤ 256) (h3 : |mh| ≤ 256) (h4 : |einc| ≤ 32)
    (h5 : |sn| ≤ 32) (h6 : |tke| ≤ 512) :
    |totalExc fl (released fl mc ml mh) einc sn tke - (mc - ml - mh + einc + sn - tke)| ≤ 1 / 2 ^ 41 := by
  have er : ∀ {x : ℝ} (k : Nat), |x| ≤ 2 ^ k → |fl x - x| ≤ 2 ^ k / 2 ^ 54 := by
    intro x k hx
    have := h.error (x := x) (e := (k : Int) - 53) (by norm_num) (by omega) (by
      rw [show ((53 : Nat) : Int) + ((k : Int) - 53) = (k : Int) by push_cast; ring, zpow_natCast]; exact hx)
    refine this.trans (le_of_eq ?_)
    rw [zpow_sub₀ (by norm_num), zpow_natCast, show (53 : Int) = ((53 : Nat) : Int) by norm_num, zpow_natCast]
    norm_num
    ring
  have a1 := abs_le.1 h1
  have a2 := abs_le.1 h2
  have a3 := abs_le.1 h3
  have a4 := abs_le.1 h4
  have a5 := abs_le.1 h5
  have a6 := abs_le.1 h6
  unfold totalExc released
  have e1 := abs_le.1 (er (x := mc - ml) 9 (by rw [abs_le]; constructor <;> norm_num <;> linarith))
  generalize fl (mc - ml) = x1 at *
  norm_num at e1
  have e2 := abs_le.1 (er (x := x1 - mh) 10 (by rw [abs_le]; constructor <;> norm_num <;> linarith))
  generalize fl (x1 - mh) = x2 at *
  norm_num at e2
  have e3 := abs_le.1 (er (x := einc + sn) 6 (by rw [abs_le]; constructor <;> norm_num <;> linarith))
  generalize fl (einc + sn) = x3 at *
  norm_num at e3
  have e4 := abs_le.1 (er (x := x2 + x3) 10 (by rw [abs_le]; constructor <;> norm_num <;> linarith))
  generalize fl (x2 + x3) = x4 at *
  norm_num at e4
  have e5 := abs_le.1 (er (x := x4 - tke) 11 (by rw [abs_le]; constructor <;> norm_num <;> linarith))
  generalize fl (x4 - tke) = x5 at *
  norm_num at e5
  rw [abs_le]
  constructor <;> norm_num <;> linarith

/-- What the loop returns. -/
theorem loop_result (h : Double fl) {ldpl ldph : ℝ → Res ℝ} {rt txe tol : ℝ} (r0 : 1 / 8 ≤ rt) (r1 : rt ≤ 8)
    (hl : ∀ x y, ldpl x = .ok y → 1 ≤ y ∧ y ≤ 64) (hh : ∀ x y, ldph x = .ok y → 1 ≤ y ∧ y ≤ 64)
    (ht : (2 : ℝ) ^ (-300 : Int) ≤ txe) (dt : IsDouble txe) (dtol : IsDouble tol) :
    ∀ (fuel : Nat) (al ah : ℝ) (u : ℝ × ℝ), 1 ≤ al ∧ al ≤ 64 → 1 ≤ ah ∧ ah ≤ 64 → (∃ x, ldpl x = .ok al) → (∃ x, ldph x = .ok ah) →
      Fp.shareLoop fl ldpl ldph rt txe tol fuel al ah = .ok u →
      txe / 2 ^ 14 ≤ u.1 ∧ txe / 2 ^ 14 ≤ u.2 ∧ |u.1 + u.2 - txe| ≤ txe / 2 ^ 52 ∧
        ∃ a b a' : ℝ, (∃ x, ldpl x = .ok a) ∧ (∃ x, ldph x = .ok b) ∧ ldpl u.1 = .ok a' ∧ |fl (a' - a)| ≤ tol ∧
          |u.2 - b / (a * rt * rt + b) * txe| ≤ txe * (6 / 2 ^ 53) := by
  intro fuel
  induction fuel with
  | zero => intro al ah u _ _ _ _ h'; simp [Fp.shareLoop] at h'
  | succ fuel ih =>
    intro al ah u ha hb xa xb h'
    obtain ⟨eh, p1, p2, p3, p4, p5, p6, p7⟩ := pass_close h ⟨r0, r1, ha.1, ha.2, hb.1, hb.2⟩ ht dt
    rw [Fp.shareLoop, p1] at h'
    simp only at h'
    cases g1 : ldpl (fl (txe - eh)) with
    | exit => rw [g1] at h'; simp at h'
    | ub => rw [g1] at h'; simp at h'
    | ok al' =>
      cases g2 : ldph eh with
      | exit => rw [g1, g2] at h'; simp at h'
      | ub => rw [g1, g2] at h'; simp at h'
      | ok ah' =>
        rw [g1, g2] at h'
        simp only at h'
        split_ifs at h' with hs
        · exact ih al' ah' u (hl _ _ g1) (hh _ _ g2) ⟨_, g1⟩ ⟨_, g2⟩ h'
        · obtain rfl := Out.ok.inj h'
          refine ⟨p3, p2, ?_, al, ah, al', xa, xb, g1, not_lt.1 hs, p6⟩
          rw [show fl (txe - eh) + eh - txe = fl (txe - eh) - (txe - eh) by ring]
          exact p7

/-- **C147** (sharing).  Whatever the sharing returns, both energies are positive (at least `2^-14` of the total) and add up to the
total up to two units of `2^-53` of it; the heavy one is, up to six units, the share that the ratio of temperatures gives for level
density parameters of the tables, of which the light one has settled. -/
theorem C147_share (h : Double fl) {ldpl ldph : ℝ → Res ℝ} {rt txe tol : ℝ} (r0 : 1 / 8 ≤ rt) (r1 : rt ≤ 8)
    (hl : ∀ x y, ldpl x = .ok y → 1 ≤ y ∧ y ≤ 64) (hh : ∀ x y, ldph x = .ok y → 1 ≤ y ∧ y ≤ 64)
    (ht : (2 : ℝ) ^ (-300 : Int) ≤ txe) (dt : IsDouble txe) (dtol : IsDouble tol) (fuel : Nat) (u : ℝ × ℝ)
    (h' : Fp.shareRT fl ldpl ldph rt txe tol fuel = .ok u) :
    txe / 2 ^ 14 ≤ u.1 ∧ txe / 2 ^ 14 ≤ u.2 ∧ |u.1 + u.2 - txe| ≤ txe / 2 ^ 52 ∧
      ∃ a b a' : ℝ, (∃ x, ldpl x = .ok a) ∧ (∃ x, ldph x = .ok b) ∧ ldpl u.1 = .ok a' ∧ |fl (a' - a)| ≤ tol ∧
        |u.2 - b / (a * rt * rt + b) * txe| ≤ txe * (6 / 2 ^ 53) := by
  unfold Fp.shareRT at h'
  cases g1 : ldpl (fl (txe / 2)) with
  | exit => rw [g1] at h'; simp at h'
  | ub => rw [g1] at h'; simp at h'
  | ok al =>
    cases g2 : ldph (fl (txe / 2)) with
    | exit => rw [g1, g2] at h'; simp at h'
    | ub => rw [g1, g2] at h'; simp at h'
    | ok ah =>
      rw [g1, g2] at h'
      exact loop_result h r0 r1 hl hh ht dt dtol fuel al ah u (hl _ _ g1) (hh _ _ g2) ⟨_, g1⟩ ⟨_, g2⟩ h'

/-- **C147** (balance).  Whenever excitation energies are returned for a pair whose total excitation energy is not negative and not below
`2^-300` MeV, the total kinetic energy and both excitation energies add up to the energy available, up to `2^-40` MeV. -/
theorem C147_balance (h : Double fl) {ldpl ldph : ℝ → Res ℝ} {rt tol mc ml mh einc sn tke : ℝ} (r0 : 1 / 8 ≤ rt) (r1 : rt ≤ 8)
    (hl : ∀ x y, ldpl x = .ok y → 1 ≤ y ∧ y ≤ 64) (hh : ∀ x y, ldph x = .ok y → 1 ≤ y ∧ y ≤ 64) (dtol : IsDouble tol)
    (h1 : |mc| ≤ 256) (h2 : |ml| ≤ 256) (h3 : |mh| ≤ 256) (h4 : |einc| ≤ 32) (h5 : |sn| ≤ 32) (h6 : |tke| ≤ 512)
    (fuel : Nat) (u : ℝ × ℝ) (h' : Fp.excite fl ldpl ldph rt tol mc ml mh einc sn tke fuel = .ok u)
    (hx : (2 : ℝ) ^ (-300 : Int) ≤ totalExc fl (released fl mc ml mh) einc sn tke) :
    0 < u.1 ∧ 0 < u.2 ∧ |tke + u.1 + u.2 - (mc - ml - mh + einc + sn)| ≤ 1 / 2 ^ 40 := by
  have av := C147_available h h1 h2 h3 h4 h5 h6
  have dx : IsDouble (totalExc fl (released fl mc ml mh) einc sn tke) := h.float _
  have hd : Fp.excite fl ldpl ldph rt tol mc ml mh einc sn tke fuel =
      if totalExc fl (released fl mc ml mh) einc sn tke < 0 then .ok (0, 0)
      else Fp.shareRT fl ldpl ldph rt (totalExc fl (released fl mc ml mh) einc sn tke) tol fuel := rfl
  rw [hd] at h'
  generalize totalExc fl (released fl mc ml mh) einc sn tke = txe at *
  have t0 : 0 < txe := lt_of_lt_of_le (by positivity) hx
  rw [if_neg (not_lt.2 t0.le)] at h'
  obtain ⟨p1, p2, p3, -⟩ := C147_share h r0 r1 hl hh hx dx dtol fuel u h'
  have a1 := abs_le.1 h1
  have a2 := abs_le.1 h2
  have a3 := abs_le.1 h3
  have a4 := abs_le.1 h4
  have a5 := abs_le.1 h5
  have a6 := abs_le.1 h6
  have av' := abs_le.1 av
  have p3' := abs_le.1 p3
  have q : 0 < txe / 2 ^ 14 := by positivity
  norm_num at av' p3'
  refine ⟨lt_of_lt_of_le q p1, lt_of_lt_of_le q p2, ?_⟩
  rw [abs_le]
  constructor <;> norm_num <;> linarith

/-- **C147** (kinetic energies).  The two kinetic energies add up to the total one and are in the inverse ratio of the masses, up to four
and six units of `2^-53`. -/
theorem C147_kinetic (h : Double fl) {tke ml mh : ℝ} (ht : 1 ≤ tke) (hl : 1 ≤ ml) (hh : 1 ≤ mh) (hm : ml + mh ≤ 2 ^ 20) :
    ∃ kl kh, Fp.kinetic fl tke ml mh = some (kl, kh) ∧ |kl + kh - tke| ≤ tke * (6 / 2 ^ 53) ∧
      |kl - tke * (mh / (ml + mh))| ≤ tke * (mh / (ml + mh)) * (6 / 2 ^ 53) ∧
      |kh - tke * (ml / (ml + mh))| ≤ tke * (ml / (ml + mh)) * (6 / 2 ^ 53) := by
  have s := agree_fl h (x := ml + mh) (small_of (n := 0) (by norm_num) (by norm_num; linarith))
  have s2 : fl (ml + mh) ≤ 2 ^ 20 := h.le_of (double_of 1 20 (by norm_num) (by norm_num) (by norm_num)) hm
  have key : ∀ m, 1 ≤ m → Agree 5 (fl (fl (tke * m) / fl (ml + mh))) (tke * (m / (ml + mh))) := by
    intro m hm
    have p : 1 ≤ tke * m := by nlinarith
    have q := agree_fl h (x := tke * m) (small_of (n := 0) (by norm_num) (by norm_num; linarith))
    have q1 : 1 ≤ fl (tke * m) := h.ge_of (double_of 1 0 (by norm_num) (by norm_num) (by norm_num)) p
    have r := (q.div s).round h (small_of (n := 20) (by norm_num) (by
      rw [le_div_iff₀ s.1]
      calc (1 : ℝ) / 2 ^ 20 * fl (ml + mh) ≤ 1 / 2 ^ 20 * 2 ^ 20 := mul_le_mul_of_nonneg_left s2 (by norm_num)
        _ = 1 := by norm_num
        _ ≤ _ := q1))
    rw [← mul_div_assoc]
    exact r.mono (by norm_num)
  have e1 := (key mh hh).error
  have e2 := (key ml hl).error
  refine ⟨fl (fl (tke * mh) / fl (ml + mh)), fl (fl (tke * ml) / fl (ml + mh)), ?_, ?_, e1, e2⟩
  · unfold Fp.kinetic fdiv
    rw [if_neg s.1.ne', if_neg s.1.ne']; rfl
  · have sum : tke * (mh / (ml + mh)) + tke * (ml / (ml + mh)) = tke := by
      have : ml + mh ≠ 0 := by linarith
      field_simp
      ring
    calc |fl (fl (tke * mh) / fl (ml + mh)) + fl (fl (tke * ml) / fl (ml + mh)) - tke|
        = |(fl (fl (tke * mh) / fl (ml + mh)) - tke * (mh / (ml + mh))) + (fl (fl (tke * ml) / fl (ml + mh)) - tke * (ml / (ml + mh)))| := by
          congr 1; linarith
      _ ≤ _ := abs_add_le _ _
      _ ≤ tke * (mh / (ml + mh)) * (6 / 2 ^ 53) + tke * (ml / (ml + mh)) * (6 / 2 ^ 53) := add_le_add e1 e2
      _ = _ := by rw [← add_mul, sum]

/-! ## The loop ends -/

/-- The level density parameters of one fragment over the energies up to `txe`: `f x` for every `x`, from 1 to 64, not falling by more
than `η` when the energy rises, and within `tol` of each other for energies closer than `txe (η + 2^-48)`. -/
structure Rising (ldp : ℝ → Res ℝ) (f : ℝ → ℝ) (txe η tol : ℝ) : Prop where
  val : ∀ x, 0 ≤ x → x ≤ txe → ldp x = .ok (f x)
  low : ∀ x, 0 ≤ x → x ≤ txe → 1 ≤ f x
  high : ∀ x, 0 ≤ x → x ≤ txe → f x ≤ 64
  mono : ∀ x y, 0 ≤ x → x ≤ y → y ≤ txe → f x ≤ f y + η
  close : ∀ x y, 0 ≤ x → x ≤ txe → 0 ≤ y → y ≤ txe → |x - y| ≤ txe * (η + 1 / 2 ^ 48) → |f x - f y| ≤ tol

section
variable {ldpl ldph : ℝ → Res ℝ} {f g : ℝ → ℝ} {rt txe tol η : ℝ}

/-- One pass of the loop. -/
theorem loop_step (h : Double fl) (r0 : 1 / 8 ≤ rt) (r1 : rt ≤ 8) (ht : (2 : ℝ) ^ (-300 : Int) ≤ txe) (dt : IsDouble txe) (dtol : IsDouble tol)
    (tol0 : 0 < tol) (F : Rising ldpl f txe η tol) (G : Rising ldph g txe η tol) {al ah : ℝ} (ha : 1 ≤ al ∧ al ≤ 64) (hb : 1 ≤ ah ∧ ah ≤ 64) :
    ∃ eh, heavyShare fl rt txe al ah = some eh ∧ 0 ≤ eh ∧ eh ≤ txe ∧ 0 ≤ fl (txe - eh) ∧ fl (txe - eh) ≤ txe ∧
      |eh - idealShare rt al ah * txe| ≤ txe * (6 / 2 ^ 53) ∧ |fl (txe - eh) - (txe - eh)| ≤ txe / 2 ^ 52 ∧
      ∀ fuel, (|f (fl (txe - eh)) - al| ≤ tol → Fp.shareLoop fl ldpl ldph rt txe tol (fuel + 1) al ah = .ok (fl (txe - eh), eh)) ∧
        (Fp.shareLoop fl ldpl ldph rt txe tol (fuel + 1) al ah = .ok (fl (txe - eh), eh) ∨
          tol < |f (fl (txe - eh)) - al| ∧ Fp.shareLoop fl ldpl ldph rt txe tol (fuel + 1) al ah =
            Fp.shareLoop fl ldpl ldph rt txe tol fuel (f (fl (txe - eh))) (g eh)) := by
  obtain ⟨eh, p1, p2, p3, p4, p5, p6, p7⟩ := pass_close h ⟨r0, r1, ha.1, ha.2, hb.1, hb.2⟩ ht dt
  have t0 : 0 < txe := lt_of_lt_of_le (by positivity) ht
  have q : 0 ≤ txe / 2 ^ 14 := by positivity
  have e0 := q.trans p2
  have l0 := q.trans p3
  refine ⟨eh, p1, e0, p4, l0, p5, p6, p7, ?_⟩
  intro fuel
  have un : Fp.shareLoop fl ldpl ldph rt txe tol (fuel + 1) al ah =
      if tol < |fl (f (fl (txe - eh)) - al)| then Fp.shareLoop fl ldpl ldph rt txe tol fuel (f (fl (txe - eh))) (g eh)
      else .ok (fl (txe - eh), eh) := by
    rw [Fp.shareLoop, p1]
    simp only
    rw [F.val _ l0 p5, G.val _ e0 p4]
  have st : |f (fl (txe - eh)) - al| ≤ tol → Fp.shareLoop fl ldpl ldph rt txe tol (fuel + 1) al ah = .ok (fl (txe - eh), eh) := by
    intro hs
    rw [un, if_neg (not_lt.2 (h.abs_le_of dtol hs))]
  refine ⟨st, ?_⟩
  by_cases hs : |f (fl (txe - eh)) - al| ≤ tol
  · exact Or.inl (st hs)
  · by_cases hc : tol < |fl (f (fl (txe - eh)) - al)|
    · exact Or.inr ⟨not_le.1 hs, by rw [un, if_pos hc]⟩
    · exact Or.inl (by rw [un, if_neg hc])

/-- The light fragment gains: the loop ends. -/
theorem rising_up (h : Double fl) (r0 : 1 / 8 ≤ rt) (r1 : rt ≤ 8) (ht : (2 : ℝ) ^ (-300 : Int) ≤ txe) (dt : IsDouble txe) (dtol : IsDouble tol)
    (tol0 : 0 < tol) (η0 : 0 ≤ η) (η1 : η ≤ tol) (F : Rising ldpl f txe η tol) (G : Rising ldph g txe η tol) :
    ∀ (n : Nat) (e w eh : ℝ), 0 ≤ e → e ≤ txe → 0 ≤ w → w ≤ txe → heavyShare fl rt txe (f e) (g w) = some eh → e ≤ fl (txe - eh) → eh ≤ w →
      64 - f e < tol * n → ∃ u, Fp.shareLoop fl ldpl ldph rt txe tol (n + 2) (f e) (g w) = .ok u := by
  have t0 : 0 < txe := lt_of_lt_of_le (by positivity) ht
  intro n
  induction n with
  | zero =>
    intro e w eh e0 e1 _ _ _ _ _ hn
    have := F.high e e0 e1
    push_cast at hn
    linarith
  | succ n ih =>
    intro e w eh e0 e1 w0 w1 he hu hw hn
    obtain ⟨eh', p1, p2, p3, p4, p5, p6, p7, p8⟩ := loop_step h r0 r1 ht dt dtol tol0 F G ⟨F.low e e0 e1, F.high e e0 e1⟩ ⟨G.low w w0 w1, G.high w w0 w1⟩
    obtain rfl : eh = eh' := Option.some.inj (he.symm.trans p1)
    rcases (p8 (n + 2)).2 with ok | ⟨big, nxt⟩
    · exact ⟨_, ok⟩
    have m1 := F.mono e (fl (txe - eh)) e0 hu p5
    have m2 := G.mono eh w p2 hw w1
    have big' : f e + tol < f (fl (txe - eh)) := by
      rcases lt_abs.1 big with c | c <;> linarith
    rw [nxt]
    obtain ⟨e2, q1, q2, q3, q4, q5, q6, q7, q8⟩ :=
      loop_step h r0 r1 ht dt dtol tol0 F G ⟨F.low _ p4 p5, F.high _ p4 p5⟩ ⟨G.low _ p2 p3, G.high _ p2 p3⟩
    rcases le_total e2 eh with c | c
    · exact ih (fl (txe - eh)) eh e2 p4 p5 p2 p3 q1 (h.mono (by linarith)) c (by push_cast at hn; linarith)
    · refine ⟨_, (q8 (n + 1)).1 (F.close _ _ q4 q5 p4 p5 ?_)⟩
      have s := share_step (rt := rt) (by linarith) (by linarith [F.low e e0 e1]) (by linarith [G.low w w0 w1]) (F.low _ p4 p5) (G.low _ p2 p3) η0
        (by linarith : f e - η ≤ f (fl (txe - eh))) (by linarith : g eh ≤ g w + η)
      have s' := mul_le_mul_of_nonneg_right s t0.le
      have k1 := abs_le.1 p6
      have k2 := abs_le.1 q6
      have k3 := abs_le.1 p7
      have k4 := abs_le.1 q7
      rw [add_mul] at s'
      rw [mul_add, abs_le]
      norm_num at *
      constructor <;> linarith

/-- The light fragment loses: the loop ends. -/
theorem rising_down (h : Double fl) (r0 : 1 / 8 ≤ rt) (r1 : rt ≤ 8) (ht : (2 : ℝ) ^ (-300 : Int) ≤ txe) (dt : IsDouble txe) (dtol : IsDouble tol)
    (tol0 : 0 < tol) (η0 : 0 ≤ η) (η1 : η ≤ tol) (F : Rising ldpl f txe η tol) (G : Rising ldph g txe η tol) :
    ∀ (n : Nat) (e w eh : ℝ), 0 ≤ e → e ≤ txe → 0 ≤ w → w ≤ txe → heavyShare fl rt txe (f e) (g w) = some eh → fl (txe - eh) ≤ e → w ≤ eh →
      f e - 1 < tol * n → ∃ u, Fp.shareLoop fl ldpl ldph rt txe tol (n + 2) (f e) (g w) = .ok u := by
  have t0 : 0 < txe := lt_of_lt_of_le (by positivity) ht
  intro n
  induction n with
  | zero =>
    intro e w eh e0 e1 _ _ _ _ _ hn
    have := F.low e e0 e1
    push_cast at hn
    linarith
  | succ n ih =>
    intro e w eh e0 e1 w0 w1 he hu hw hn
    obtain ⟨eh', p1, p2, p3, p4, p5, p6, p7, p8⟩ := loop_step h r0 r1 ht dt dtol tol0 F G ⟨F.low e e0 e1, F.high e e0 e1⟩ ⟨G.low w w0 w1, G.high w w0 w1⟩
    obtain rfl : eh = eh' := Option.some.inj (he.symm.trans p1)
    rcases (p8 (n + 2)).2 with ok | ⟨big, nxt⟩
    · exact ⟨_, ok⟩
    have m1 := F.mono (fl (txe - eh)) e p4 hu e1
    have m2 := G.mono w eh w0 hw p3
    have big' : f (fl (txe - eh)) < f e - tol := by
      rcases lt_abs.1 big with c | c <;> linarith
    rw [nxt]
    obtain ⟨e2, q1, q2, q3, q4, q5, q6, q7, q8⟩ :=
      loop_step h r0 r1 ht dt dtol tol0 F G ⟨F.low _ p4 p5, F.high _ p4 p5⟩ ⟨G.low _ p2 p3, G.high _ p2 p3⟩
    rcases le_total eh e2 with c | c
    · exact ih (fl (txe - eh)) eh e2 p4 p5 p2 p3 q1 (h.mono (by linarith)) c (by push_cast at hn; linarith)
    · refine ⟨_, (q8 (n + 1)).1 (F.close _ _ q4 q5 p4 p5 ?_)⟩
      have s := share_step (rt := rt) (by linarith) (by linarith [F.low _ p4 p5]) (by linarith [G.low _ p2 p3]) (F.low e e0 e1) (G.low w w0 w1) η0
        (by linarith : f (fl (txe - eh)) - η ≤ f e) (by linarith : g w ≤ g eh + η)
      have s' := mul_le_mul_of_nonneg_right s t0.le
      have k1 := abs_le.1 p6
      have k2 := abs_le.1 q6
      have k3 := abs_le.1 p7
      have k4 := abs_le.1 q7
      rw [add_mul] at s'
      rw [mul_add, abs_le]
      norm_num at *
      constructor <;> linarith

theorem half_double (ht : (2 : ℝ) ^ (-300 : Int) ≤ txe) (dt : IsDouble txe) : IsDouble (txe / 2) := by
  obtain ⟨m, e, hm, he, hx⟩ := dt
  refine ⟨m, e - 1, hm, ?_, ?_⟩
  · by_contra hc
    have e1 : e = -1074 := by omega
    subst e1
    have m1 : (m : ℝ) ≤ 2 ^ (53 : Int) := by
      have : m ≤ 2 ^ 53 := (le_abs_self m).trans hm.le
      exact_mod_cast this
    have : txe ≤ 2 ^ (53 : Int) * 2 ^ (-1074 : Int) := by rw [hx]; exact mul_le_mul_of_nonneg_right m1 (by positivity)
    rw [← zpow_add₀ (by norm_num)] at this
    have l := ht.trans this
    exact absurd l (not_le.2 (zpow_lt_zpow_right₀ (by norm_num) (by norm_num)))
  · rw [hx, zpow_sub₀ (by norm_num), zpow_one]; ring

/-- **C147** (the loop ends).  In double arithmetic too, the sharing returns after at most `63/tol + 3` passes when the level density
parameters rise with the energy up to `η` and have no jump. -/
theorem C147_ends (h : Double fl) (r0 : 1 / 8 ≤ rt) (r1 : rt ≤ 8) (ht : (2 : ℝ) ^ (-300 : Int) ≤ txe) (dt : IsDouble txe) (dtol : IsDouble tol)
    (tol0 : 0 < tol) (η0 : 0 ≤ η) (η1 : η ≤ tol) (F : Rising ldpl f txe η tol) (G : Rising ldph g txe η tol) (n : Nat) (hn : 63 < tol * n) :
    ∃ u, Fp.shareRT fl ldpl ldph rt txe tol (n + 2) = .ok u := by
  have t0 : 0 < txe := lt_of_lt_of_le (by positivity) ht
  have half : fl (txe / 2) = txe / 2 := h.fix (half_double ht dt)
  have x0 : 0 ≤ txe / 2 := by linarith
  have x1 : txe / 2 ≤ txe := by linarith
  unfold Fp.shareRT
  rw [half, F.val _ x0 x1, G.val _ x0 x1]
  simp only
  obtain ⟨eh, p1, p2, p3, p4, p5, -⟩ := loop_step h r0 r1 ht dt dtol tol0 F G ⟨F.low _ x0 x1, F.high _ x0 x1⟩ ⟨G.low _ x0 x1, G.high _ x0 x1⟩
  have dh := half_double ht dt
  rcases le_total eh (txe / 2) with c | c
  · exact rising_up h r0 r1 ht dt dtol tol0 η0 η1 F G n _ _ eh x0 x1 x0 x1 p1 (h.ge_of dh (by linarith)) c (by linarith [F.low _ x0 x1])
  · exact rising_down h r0 r1 ht dt dtol tol0 η0 η1 F G n _ _ eh x0 x1 x0 x1 p1 (h.le_of dh (by linarith)) c (by linarith [F.high _ x0 x1])

end

/-! ## The loop ends for parameters that vary slowly -/

/-- The level density parameters of one fragment over the energies up to `txe`: `f x` for every `x`, from `A` to 64, changing by at most
`κ A` per MeV and `η`. -/
structure Steady (ldp : ℝ → Res ℝ) (f : ℝ → ℝ) (txe A κ η : ℝ) : Prop where
  val : ∀ x, 0 ≤ x → x ≤ txe → ldp x = .ok (f x)
  low : ∀ x, 0 ≤ x → x ≤ txe → A ≤ f x
  high : ∀ x, 0 ≤ x → x ≤ txe → f x ≤ 64
  slope : ∀ x y, 0 ≤ x → x ≤ txe → 0 ≤ y → y ≤ txe → |f x - f y| ≤ κ * A * |x - y| + η

section
variable {ldpl ldph : ℝ → Res ℝ} {f g : ℝ → ℝ} {rt txe tol η A B κ : ℝ}

theorem steady_loop (h : Double fl) (r0 : 1 / 8 ≤ rt) (r1 : rt ≤ 8) (ht : (2 : ℝ) ^ (-300 : Int) ≤ txe) (dt : IsDouble txe) (dtol : IsDouble tol)
    (hA : 1 ≤ A) (hB : 1 ≤ B) (hκ : 0 ≤ κ) (η0 : 0 ≤ η) (F : Steady ldpl f txe A κ η) (G : Steady ldph g txe B κ η) {D : ℝ}
    (hD : txe * (η / 2 + 1 / 2 ^ 49) ≤ (1 - txe * κ / 2) * D) :
    ∀ (n : Nat) (e w eh d : ℝ), 0 ≤ e → e ≤ txe → 0 ≤ w → w ≤ txe → 0 ≤ d → heavyShare fl rt txe (f e) (g w) = some eh →
      |fl (txe - eh) - e| ≤ D + d → |eh - w| ≤ D + d → κ * A * (D + d * (txe * κ / 2) ^ n) + η ≤ tol →
      ∃ u, Fp.shareLoop fl ldpl ldph rt txe tol (n + 1) (f e) (g w) = .ok u := by
  have t0 : 0 < txe := lt_of_lt_of_le (by positivity) ht
  have un : ∀ al ah eh, A ≤ al → al ≤ 64 → B ≤ ah → ah ≤ 64 → heavyShare fl rt txe al ah = some eh → 0 ≤ eh ∧ eh ≤ txe ∧ 0 ≤ fl (txe - eh) ∧
      fl (txe - eh) ≤ txe ∧ |eh - idealShare rt al ah * txe| ≤ txe * (6 / 2 ^ 53) ∧ |fl (txe - eh) - (txe - eh)| ≤ txe / 2 ^ 52 ∧
      ∀ fuel, Fp.shareLoop fl ldpl ldph rt txe tol (fuel + 1) al ah =
        if tol < |fl (f (fl (txe - eh)) - al)| then Fp.shareLoop fl ldpl ldph rt txe tol fuel (f (fl (txe - eh))) (g eh)
        else .ok (fl (txe - eh), eh) := by
    intro al ah eh a0 a1 b0 b1 he
    obtain ⟨eh', p1, p2, p3, p4, p5, p6, p7⟩ := pass_close h ⟨r0, r1, hA.trans a0, a1, hB.trans b0, b1⟩ ht dt
    obtain rfl : eh = eh' := Option.some.inj (he.symm.trans p1)
    have q : 0 ≤ txe / 2 ^ 14 := by positivity
    refine ⟨q.trans p2, p4, q.trans p3, p5, p6, p7, fun fuel => ?_⟩
    rw [Fp.shareLoop, p1]
    simp only
    rw [F.val _ (q.trans p3) p5, G.val _ (q.trans p2) p4]
  intro n
  induction n with
  | zero =>
    intro e w eh d e0 e1 w0 w1 d0 he hd _ htol
    obtain ⟨p2, p3, p4, p5, p6, p7, p8⟩ := un _ _ eh (F.low e e0 e1) (F.high e e0 e1) (G.low w w0 w1) (G.high w w0 w1) he
    refine ⟨_, (p8 0).trans (if_neg (not_lt.2 (h.abs_le_of dtol ?_)))⟩
    refine (F.slope _ _ p4 p5 e0 e1).trans (le_trans ?_ htol)
    rw [pow_zero, mul_one]
    have := mul_le_mul_of_nonneg_left hd (mul_nonneg hκ (by linarith : (0 : ℝ) ≤ A))
    linarith
  | succ n ih =>
    intro e w eh d e0 e1 w0 w1 d0 he hd hw htol
    have fa := F.low e e0 e1
    have ga := G.low w w0 w1
    obtain ⟨p2, p3, p4, p5, p6, p7, p8⟩ := un _ _ eh fa (F.high e e0 e1) ga (G.high w w0 w1) he
    rw [p8 (n + 1)]
    split_ifs with hs
    · obtain ⟨e2, q1, -, -, -, -, -, -⟩ := pass_close h ⟨r0, r1, hA.trans (F.low _ p4 p5), F.high _ p4 p5, hB.trans (G.low _ p2 p3), G.high _ p2 p3⟩ ht dt
      obtain ⟨-, -, -, -, q6, q7, -⟩ := un _ _ e2 (F.low _ p4 p5) (F.high _ p4 p5) (G.low _ p2 p3) (G.high _ p2 p3) q1
      -- the ideal shares
      have k : |idealShare rt (f (fl (txe - eh))) (g eh) - idealShare rt (f e) (g w)| ≤
          |f (fl (txe - eh)) - f e| / (4 * A) + |g eh - g w| / (4 * B) :=
        share_lip (by linarith) (by linarith) (by linarith) fa (F.low _ p4 p5) ga (G.low _ p2 p3)
      have j1 := F.slope _ _ p4 p5 e0 e1
      have j2 := G.slope _ _ p2 p3 w0 w1
      have m : ∀ {C z δ : ℝ}, 1 ≤ C → z ≤ κ * C * δ + η → δ ≤ D + d → z / (4 * C) ≤ κ * (D + d) / 4 + η / 4 := by
        intro C z δ hC hz hδ
        rw [div_le_iff₀ (by linarith)]
        have u1 := mul_le_mul_of_nonneg_left hδ (mul_nonneg hκ (by linarith : (0 : ℝ) ≤ C))
        have u2 := mul_le_mul_of_nonneg_left hC η0
        calc z ≤ κ * C * (D + d) + η * C := by linarith
          _ = _ := by ring
      have m3 := mul_le_mul_of_nonneg_right (k.trans (add_le_add (m hA j1 hd) (m hB j2 hw))) t0.le
      rw [← abs_of_pos t0, ← abs_mul, abs_of_pos t0, sub_mul] at m3
      have m4 : (κ * (D + d) / 4 + η / 4 + (κ * (D + d) / 4 + η / 4)) * txe = txe * κ / 2 * D + d * (txe * κ / 2) + txe * (η / 2) := by ring
      rw [m4] at m3
      have hD' : txe * (η / 2) + txe * (1 / 2 ^ 49) ≤ D - txe * κ / 2 * D := by rw [← mul_add]; refine hD.trans (le_of_eq (by ring))
      have a1 := abs_le.1 m3
      have a2 := abs_le.1 p6
      have a3 := abs_le.1 q6
      have a4 := abs_le.1 p7
      have a5 := abs_le.1 q7
      have bound : |e2 - eh| ≤ D + d * (txe * κ / 2) - txe * (4 / 2 ^ 53) ∧ |fl (txe - e2) - fl (txe - eh)| ≤ D + d * (txe * κ / 2) := by
        rw [abs_le, abs_le]
        norm_num at a2 a3 a4 a5 hD' ⊢
        constructor <;> constructor <;> linarith
      refine ih (fl (txe - eh)) eh e2 (d * (txe * κ / 2)) p4 p5 p2 p3 (mul_nonneg d0 (by positivity)) q1 bound.2 ?_ ?_
      · refine bound.1.trans ?_
        have : 0 ≤ txe * (4 / 2 ^ 53) := by positivity
        linarith
      · refine le_trans (le_of_eq ?_) htol
        rw [pow_succ]; ring
    · exact ⟨_, rfl⟩

/-- **C147** (the loop ends, rising or falling parameters).  When the level density parameters of the fragments change by at most `κ` times
their least value per MeV, up to `η`, the sharing in double arithmetic returns as soon as `κ A (D + txe (κ txe / 2)^n) + η ≤ tol`, where
`D` covers the roundings. -/
theorem C147_steady (h : Double fl) (r0 : 1 / 8 ≤ rt) (r1 : rt ≤ 8) (ht : (2 : ℝ) ^ (-300 : Int) ≤ txe) (dt : IsDouble txe) (dtol : IsDouble tol)
    (hA : 1 ≤ A) (hB : 1 ≤ B) (hκ : 0 ≤ κ) (η0 : 0 ≤ η) (F : Steady ldpl f txe A κ η) (G : Steady ldph g txe B κ η) {D : ℝ} (D0 : 0 ≤ D)
    (hD : txe * (η / 2 + 1 / 2 ^ 49) ≤ (1 - txe * κ / 2) * D) (n : Nat) (hn : κ * A * (D + txe * (txe * κ / 2) ^ n) + η ≤ tol) :
    ∃ u, Fp.shareRT fl ldpl ldph rt txe tol (n + 1) = .ok u := by
  have t0 : 0 < txe := lt_of_lt_of_le (by positivity) ht
  have half : fl (txe / 2) = txe / 2 := h.fix (half_double ht dt)
  have x0 : 0 ≤ txe / 2 := by linarith
  have x1 : txe / 2 ≤ txe := by linarith
  unfold Fp.shareRT
  rw [half, F.val _ x0 x1, G.val _ x0 x1]
  simp only
  obtain ⟨eh, p1, p2, p3, p4, p5, p6, p7⟩ := pass_close h ⟨r0, r1, hA.trans (F.low _ x0 x1), F.high _ x0 x1, hB.trans (G.low _ x0 x1), G.high _ x0 x1⟩ ht dt
  have q : 0 ≤ txe / 2 ^ 14 := by positivity
  refine steady_loop h r0 r1 ht dt dtol hA hB hκ η0 F G hD n (txe / 2) (txe / 2) eh txe x0 x1 x0 x1 t0.le p1 ?_ ?_ hn
  · rw [abs_le]; constructor <;> linarith
  · rw [abs_le]; constructor <;> linarith

end

/-! ## The table of level density parameters -/

/-- The interpolation on numbers. -/
theorem line_close (h : Double fl) {p1 p2 d t : ℝ} (a1 : 1 ≤ p1) (b1 : p1 ≤ 64) (a2 : 1 ≤ p2) (b2 : p2 ≤ 64) (d0 : 1 / 2 ^ 10 ≤ d) (d1 : d ≤ 2 ^ 10)
    (t0 : 0 ≤ t) (t1 : t ≤ d) :
    fl d ≠ 0 ∧ |fl (fl (fl (fl (p2 - p1) / fl d) * fl t) + p1) - ((p2 - p1) / d * t + p1)| ≤ 1 / 2 ^ 43 := by
  have er : ∀ x : ℝ, |fl x - x| ≤ |x| * (1 / 2 ^ 53) + 1 / 2 ^ 200 := by
    intro x
    have := h.any (x := x) (by norm_num)
    have e : (2 : ℝ) ^ (-1074 : Int) / 2 ≤ 1 / 2 ^ 200 := by
      rw [show (1 : ℝ) / 2 ^ 200 = 2 ^ (-200 : Int) by norm_num]
      exact (div_le_self (by positivity) (by norm_num)).trans (zpow_le_zpow_right₀ (by norm_num) (by norm_num))
    have e2 : |x| / 2 ^ 53 = |x| * (1 / 2 ^ 53) := by ring
    rw [e2] at this
    linarith
  have dp : 0 < d := lt_of_lt_of_le (by norm_num) d0
  obtain ⟨f0, -, f1, f2⟩ := agree_fl h (small_of (n := 10) (by norm_num) d0)
  refine ⟨f0.ne', ?_⟩
  -- the two differences
  have hD : |p2 - p1| ≤ 63 := by rw [abs_le]; constructor <;> linarith
  have eD := er (p2 - p1)
  generalize p2 - p1 = D at *
  generalize fl D = D' at *
  have eD' : |D' - D| ≤ 64 / 2 ^ 53 := by
    refine eD.trans ?_
    have := mul_le_mul_of_nonneg_right hD (show (0 : ℝ) ≤ 1 / 2 ^ 53 by norm_num)
    norm_num at this ⊢; linarith
  have hD' : |D'| ≤ 64 := by
    have := abs_sub_abs_le_abs_sub D' D
    norm_num at eD'; linarith
  generalize fl d = d' at *
  -- d / d'
  have rho : |d / d' - 1| ≤ 2 / 2 ^ 53 := by
    rw [show d / d' - 1 = (d - d') / d' by field_simp, abs_div, abs_of_pos f0, div_le_iff₀ f0, abs_le]
    norm_num at f1 f2 ⊢
    constructor <;> linarith
  have rho2 : d / d' ≤ 2 := by have := (abs_le.1 rho).2; norm_num at this; linarith
  have rho0 : 0 ≤ d / d' := by positivity
  have eq := er (D' / d')
  generalize hq : fl (D' / d') = q at *
  have m1 : |D' / d'| * d = |D'| * (d / d') := by rw [abs_div, abs_of_pos f0]; ring
  have eqd : |q - D' / d'| * d ≤ 130 / 2 ^ 53 := by
    calc |q - D' / d'| * d ≤ (|D' / d'| * (1 / 2 ^ 53) + 1 / 2 ^ 200) * d := mul_le_mul_of_nonneg_right eq dp.le
      _ = |D'| * (d / d') * (1 / 2 ^ 53) + 1 / 2 ^ 200 * d := by rw [← m1]; ring
      _ ≤ 64 * 2 * (1 / 2 ^ 53) + 1 / 2 ^ 200 * 2 ^ 10 := by gcongr
      _ ≤ _ := by norm_num
  have qd : |q * d - D| ≤ 330 / 2 ^ 53 := by
    have : q * d - D = (q - D' / d') * d + D' * (d / d' - 1) + (D' - D) := by field_simp; ring
    rw [this]
    have k1 : |(q - D' / d') * d| ≤ 130 / 2 ^ 53 := by rw [abs_mul, abs_of_pos dp]; exact eqd
    have k2 : |D' * (d / d' - 1)| ≤ 64 * (2 / 2 ^ 53) := by rw [abs_mul]; exact mul_le_mul hD' rho (abs_nonneg _) (by norm_num)
    have k3 := abs_add_three ((q - D' / d') * d) (D' * (d / d' - 1)) (D' - D)
    refine k3.trans ?_
    norm_num at *
    linarith
  have qd2 : |q| * d ≤ 64 := by
    have := abs_sub_abs_le_abs_sub (q * d) D
    rw [abs_mul, abs_of_pos dp] at this
    norm_num at qd; linarith
  have q2 : |q| ≤ 2 ^ 17 := by
    have := mul_le_mul_of_nonneg_left d0 (abs_nonneg q)
    norm_num at this ⊢; linarith
  have et := er t
  rw [abs_of_nonneg t0] at et
  generalize fl t = t' at *
  have prod : |q * t' - D / d * t| ≤ 400 / 2 ^ 53 := by
    have : q * t' - D / d * t = q * (t' - t) + (q * d - D) * (t / d) := by field_simp; ring
    rw [this]
    have k1 : |q * (t' - t)| ≤ 64 * (1 / 2 ^ 53) + 2 ^ 17 * (1 / 2 ^ 200) := by
      rw [abs_mul]
      calc |q| * |t' - t| ≤ |q| * (d * (1 / 2 ^ 53) + 1 / 2 ^ 200) := by gcongr; exact et.trans (by gcongr)
        _ = |q| * d * (1 / 2 ^ 53) + |q| * (1 / 2 ^ 200) := by ring
        _ ≤ _ := by gcongr
    have k2 : |(q * d - D) * (t / d)| ≤ 330 / 2 ^ 53 := by
      rw [abs_mul, abs_of_nonneg (div_nonneg t0 dp.le)]
      calc |q * d - D| * (t / d) ≤ 330 / 2 ^ 53 * 1 := mul_le_mul qd ((div_le_one dp).2 t1) (div_nonneg t0 dp.le) (by norm_num)
        _ = _ := mul_one _
    refine (abs_add_le _ _).trans ((add_le_add k1 k2).trans ?_)
    norm_num
  have main : |D / d * t| ≤ 63 := by
    rw [show D / d * t = D * (t / d) by ring, abs_mul, abs_of_nonneg (div_nonneg t0 dp.le)]
    calc |D| * (t / d) ≤ 63 * 1 := mul_le_mul hD ((div_le_one dp).2 t1) (div_nonneg t0 dp.le) (by norm_num)
      _ = 63 := mul_one _
  have e1 := er (q * t')
  generalize q * t' = y at *
  generalize D / d * t = z at *
  have m2 := abs_le.1 main
  have m3 := abs_le.1 prod
  have y1 : |y| ≤ 64 := by rw [abs_le]; norm_num at m3; constructor <;> linarith
  have e1' := abs_le.1 (e1.trans (add_le_add_left (mul_le_mul_of_nonneg_right y1 (by norm_num)) _))
  generalize fl y = y' at *
  norm_num at m3 e1'
  have e2 := er (y' + p1)
  have y2 : |y' + p1| ≤ 200 := by rw [abs_le]; constructor <;> linarith
  have e2' := abs_le.1 (e2.trans (add_le_add_left (mul_le_mul_of_nonneg_right y2 (by norm_num)) _))
  generalize fl (y' + p1) = v at *
  norm_num at e2'
  rw [abs_le]
  constructor <;> norm_num <;> linarith

/-- A table row over an energy grid: the row is as long as the grid, values from 2 to 63, spacings from `2^-10` to `2^10` MeV, values
that do not fall and rise by at most `L` per MeV. -/
structure RisingRow (grid row : List ℝ) (L : ℝ) : Prop where
  len : grid.length ≤ row.length
  low : ∀ p ∈ row, 2 ≤ p
  high : ∀ p ∈ row, p ≤ 63
  step : ∀ (k : Nat) (e1 e2 : ℝ), grid[k]? = some e1 → grid[k + 1]? = some e2 → 1 / 2 ^ 10 ≤ e2 - e1 ∧ e2 - e1 ≤ 2 ^ 10
  rise : ∀ (k : Nat) (e1 e2 p1 p2 : ℝ), grid[k]? = some e1 → grid[k + 1]? = some e2 → row[k]? = some p1 → row[k + 1]? = some p2 →
    p1 ≤ p2 ∧ p2 - p1 ≤ L * (e2 - e1)

section
open CGMF.Frag (interpRow findEnergyIndex)

/-- What both interpolations read. -/
theorem table_reads {grid row : List ℝ} (hlen : grid.length ≤ row.length) {e : ℝ} (h0 : ∀ g ∈ grid.head?, g ≤ e) (h1 : ∃ g ∈ grid, e < g) :
    ∃ (k : Nat) (e1 e2 p1 p2 : ℝ), grid[k]? = some e1 ∧ grid[k + 1]? = some e2 ∧ row[k]? = some p1 ∧ row[k + 1]? = some p2 ∧ e1 ≤ e ∧ e < e2 ∧
      interpRow grid row e = .ok ((p2 - p1) / (e2 - e1) * (e - e1) + p1) ∧
      ∀ fl, Fp.interp fl grid row e = (match fdiv fl (fl (p2 - p1)) (fl (e2 - e1)) with
        | none => .ub
        | some q => .ok (fl (fl (q * fl (e - e1)) + p1))) := by
  match grid, hlen, h0, h1 with
  | [], _, _, h1 => simp at h1
  | x :: xs, hlen, h0, h1 =>
    have hx : x ≤ e := h0 x (by simp)
    rcases energyIndex_spec (e := e) (x := x) (xs := xs) with ⟨_, hn⟩ | ⟨k, hk, ⟨hkl, hke⟩, hb⟩
    · obtain ⟨g, hg, hge⟩ := h1
      rcases List.mem_cons.mp hg with rfl | hg
      · linarith
      · have := hn g hg; linarith
    · have hkl' : k + 1 < (x :: xs).length := by simp; omega
      have g1 : (x :: xs)[k]? = some ((x :: xs)[k]'(by omega)) := List.getElem?_eq_getElem _
      have g2 : (x :: xs)[k + 1]? = some xs[k] := by simp [List.getElem?_eq_getElem hkl]
      have r1 : row[k]? = some (row[k]'(by omega)) := List.getElem?_eq_getElem _
      have r2 : row[k + 1]? = some (row[k + 1]'(by omega)) := List.getElem?_eq_getElem _
      have hlo : (x :: xs)[k]'(by omega) ≤ e := by
        cases k with
        | zero => simpa using hx
        | succ j =>
          have := hb j (xs[j]'(by omega)) (by omega) (List.getElem?_eq_getElem _)
          simpa using this
      have c : (k : Int) + 1 = ((k + 1 : Nat) : Int) := by push_cast; rfl
      have a1 := readAt_ok_iff.mpr (⟨by omega, by rw [Int.toNat_natCast]; exact g1⟩ : 0 ≤ (k : Int) ∧ (x :: xs)[(k : Int).toNat]? = _)
      have a2 := readAt_ok_iff.mpr (⟨by omega, by rw [Int.toNat_natCast]; exact g2⟩ : 0 ≤ ((k + 1 : Nat) : Int) ∧ (x :: xs)[((k + 1 : Nat) : Int).toNat]? = _)
      have a3 := readAt_ok_iff.mpr (⟨by omega, by rw [Int.toNat_natCast]; exact r1⟩ : 0 ≤ (k : Int) ∧ row[(k : Int).toNat]? = _)
      have a4 := readAt_ok_iff.mpr (⟨by omega, by rw [Int.toNat_natCast]; exact r2⟩ : 0 ≤ ((k + 1 : Nat) : Int) ∧ row[((k + 1 : Nat) : Int).toNat]? = _)
      refine ⟨k, _, _, _, _, g1, g2, r1, r2, hlo, hke, ?_, ?_⟩
      · unfold interpRow
        rw [hk, c, a1, a2, a3, a4]
        rfl
      · intro fl
        unfold Fp.interp
        rw [hk, c, a1, a2, a3, a4]
        rfl

/-- **C147** (level density parameters).  Inside the table the interpolated parameter is the exact interpolation up to `2^-43`. -/
theorem C147_table (h : Double fl) {grid row : List ℝ} (hlen : grid.length ≤ row.length) (hlow : ∀ p ∈ row, 1 ≤ p) (hhigh : ∀ p ∈ row, p ≤ 64)
    (hstep : ∀ (k : Nat) (e1 e2 : ℝ), grid[k]? = some e1 → grid[k + 1]? = some e2 → 1 / 2 ^ 10 ≤ e2 - e1 ∧ e2 - e1 ≤ 2 ^ 10)
    {e : ℝ} (h0 : ∀ g ∈ grid.head?, g ≤ e) (h1 : ∃ g ∈ grid, e < g) :
    ∃ v w, interpRow grid row e = .ok v ∧ Fp.interp fl grid row e = .ok w ∧ |w - v| ≤ 1 / 2 ^ 43 := by
  obtain ⟨k, e1, e2, p1, p2, g1, g2, r1, r2, le, lt, a, b⟩ := table_reads hlen h0 h1
  have s := hstep k e1 e2 g1 g2
  have m1 := List.mem_of_getElem? r1
  have m2 := List.mem_of_getElem? r2
  obtain ⟨d, q⟩ := line_close h (hlow _ m1) (hhigh _ m1) (hlow _ m2) (hhigh _ m2) s.1 s.2 (by linarith : 0 ≤ e - e1) (by linarith)
  refine ⟨_, _, a, ?_, q⟩
  rw [b fl]
  unfold fdiv
  rw [if_neg d]

/-- Values at grid points. -/
theorem nodes_rise {grid row : List ℝ} {L : ℝ} (R : RisingRow grid row L) (j : Nat) : ∀ (n : Nat) (e1 e2 p1 p2 : ℝ), grid[j]? = some e1 →
    grid[j + n]? = some e2 → row[j]? = some p1 → row[j + n]? = some p2 → e1 ≤ e2 ∧ p1 ≤ p2 ∧ p2 - p1 ≤ L * (e2 - e1) := by
  intro n
  induction n with
  | zero =>
    intro e1 e2 p1 p2 h1 h2 h3 h4
    have a : e1 = e2 := Option.some.inj (h1.symm.trans h2)
    have b : p1 = p2 := Option.some.inj (h3.symm.trans h4)
    subst a b
    simp
  | succ n ih =>
    intro e1 e2 p1 p2 h1 h2 h3 h4
    have l1 : j + n < grid.length := by
      have := (List.getElem?_eq_some_iff.1 h2).1; omega
    have l2 : j + n < row.length := by
      have := (List.getElem?_eq_some_iff.1 h4).1; omega
    obtain ⟨a, b, c⟩ := ih e1 _ p1 _ h1 (List.getElem?_eq_getElem l1) h3 (List.getElem?_eq_getElem l2)
    have s := R.step _ _ _ (List.getElem?_eq_getElem l1) h2
    have t := R.rise _ _ _ _ _ (List.getElem?_eq_getElem l1) h2 (List.getElem?_eq_getElem l2) h4
    have p : (0 : ℝ) < 1 / 2 ^ 10 := by norm_num
    refine ⟨by linarith, by linarith, ?_⟩
    linarith [t.2]

/-- The exact interpolation does not fall, and rises by at most `L` per MeV. -/
theorem table_rise {grid row : List ℝ} {L : ℝ} (hL : 0 ≤ L) (R : RisingRow grid row L) {x y v w : ℝ} (hxy : x ≤ y)
    (h0 : ∀ g ∈ grid.head?, g ≤ x) (h1 : ∃ g ∈ grid, y < g) (hv : interpRow grid row x = .ok v) (hw : interpRow grid row y = .ok w) :
    v ≤ w ∧ w - v ≤ L * (y - x) ∧ 2 ≤ v ∧ w ≤ 63 := by
  obtain ⟨g0, m0, l0⟩ := h1
  obtain ⟨j, a1, a2, p1, p2, b1, b2, b3, b4, b5, b6, b7, -⟩ := table_reads R.len h0 ⟨g0, m0, lt_of_le_of_lt hxy l0⟩
  obtain ⟨k, c1, c2, q1, q2, d1, d2, d3, d4, d5, d6, d7, -⟩ := table_reads R.len (fun g hg => (h0 g hg).trans hxy) ⟨g0, m0, l0⟩
  obtain rfl := Res.ok.inj (hv.symm.trans b7)
  obtain rfl := Res.ok.inj (hw.symm.trans d7)
  have sj := R.rise j _ _ _ _ b1 b2 b3 b4
  have sk := R.rise k _ _ _ _ d1 d2 d3 d4
  have tj := (R.step j _ _ b1 b2).1
  have tk := (R.step k _ _ d1 d2).1
  have p0 : (0 : ℝ) < 1 / 2 ^ 10 := by norm_num
  have dj : 0 < a2 - a1 := by linarith
  have dk : 0 < c2 - c1 := by linarith
  -- slopes
  have mj0 : 0 ≤ (p2 - p1) / (a2 - a1) := div_nonneg (by linarith) dj.le
  have mj1 : (p2 - p1) / (a2 - a1) ≤ L := (div_le_iff₀ dj).2 sj.2
  have mk0 : 0 ≤ (q2 - q1) / (c2 - c1) := div_nonneg (by linarith) dk.le
  have mk1 : (q2 - q1) / (c2 - c1) ≤ L := (div_le_iff₀ dk).2 sk.2
  have ej : p2 = (p2 - p1) / (a2 - a1) * (a2 - a1) + p1 := by field_simp; ring
  have ek : q2 = (q2 - q1) / (c2 - c1) * (c2 - c1) + q1 := by field_simp; ring
  have lo : 2 ≤ p1 := R.low _ (List.mem_of_getElem? b3)
  have hi : q2 ≤ 63 := R.high _ (List.mem_of_getElem? d4)
  generalize hmj : (p2 - p1) / (a2 - a1) = mj at *
  generalize hmk : (q2 - q1) / (c2 - c1) = mk at *
  have low : 2 ≤ mj * (x - a1) + p1 := by have := mul_nonneg mj0 (by linarith : 0 ≤ x - a1); linarith
  have hig : mk * (y - c1) + q1 ≤ 63 := by have := mul_le_mul_of_nonneg_left (by linarith : y - c1 ≤ c2 - c1) mk0; linarith
  rcases lt_trichotomy j k with hjk | hjk | hjk
  · obtain ⟨n, rfl⟩ : ∃ n, k = j + 1 + n := ⟨k - (j + 1), by omega⟩
    obtain ⟨z1, z2, z3⟩ := nodes_rise R (j + 1) n _ _ _ _ b2 d1 b4 d3
    have u1 := mul_le_mul_of_nonneg_left (by linarith : x - a1 ≤ a2 - a1) mj0
    have u2 := mul_nonneg mk0 (by linarith : 0 ≤ y - c1)
    have u3 := mul_le_mul_of_nonneg_right mk1 (by linarith : 0 ≤ y - c1)
    have u4 := mul_le_mul_of_nonneg_right mj1 (by linarith : 0 ≤ a2 - x)
    refine ⟨by linarith, ?_, low, hig⟩
    have : mj * (a2 - a1) - mj * (x - a1) = mj * (a2 - x) := by ring
    linarith
  · subst hjk
    have e1 : a1 = c1 := Option.some.inj (b1.symm.trans d1)
    have e2 : a2 = c2 := Option.some.inj (b2.symm.trans d2)
    have e3 : p1 = q1 := Option.some.inj (b3.symm.trans d3)
    have e4 : p2 = q2 := Option.some.inj (b4.symm.trans d4)
    subst e1 e2 e3 e4
    have e5 : mj = mk := hmj.symm.trans hmk
    subst e5
    have u1 := mul_le_mul_of_nonneg_left (by linarith : x - a1 ≤ y - a1) mj0
    have u2 := mul_le_mul_of_nonneg_right mj1 (by linarith : 0 ≤ y - x)
    refine ⟨by linarith, ?_, low, hig⟩
    have : mj * (y - a1) - mj * (x - a1) = mj * (y - x) := by ring
    linarith
  · exfalso
    obtain ⟨n, rfl⟩ : ∃ n, j = k + 1 + n := ⟨j - (k + 1), by omega⟩
    obtain ⟨z1, -, -⟩ := nodes_rise R (k + 1) n _ _ _ _ d2 b1 d4 b3
    linarith

/-- The computed interpolation of such a row meets the hypotheses of the loop. -/
theorem table_rising (h : Double fl) {grid row : List ℝ} {L txe tol : ℝ} (hL : 0 ≤ L) (R : RisingRow grid row L) (h0 : ∀ g ∈ grid.head?, g ≤ 0)
    (h1 : ∃ g ∈ grid, txe < g) (t0 : 0 ≤ txe) (htol : L * txe / 2 ^ 41 + 1 / 2 ^ 42 ≤ tol) :
    ∃ f, Rising (Fp.interp fl grid row) f txe (1 / 2 ^ 42) tol := by
  have key : ∀ x, 0 ≤ x → x ≤ txe → ∃ v w, interpRow grid row x = .ok v ∧ Fp.interp fl grid row x = .ok w ∧ |w - v| ≤ 1 / 2 ^ 43 := by
    intro x a b
    obtain ⟨g, m, l⟩ := h1
    exact C147_table h R.len (fun p hp => by linarith [R.low p hp]) (fun p hp => by linarith [R.high p hp]) R.step
      (fun g hg => (h0 g hg).trans a) ⟨g, m, lt_of_le_of_lt b l⟩
  refine ⟨fun x => match Fp.interp fl grid row x with | .ok w => w | _ => 0, ?_, ?_, ?_, ?_, ?_⟩
  · intro x a b
    obtain ⟨v, w, -, k, -⟩ := key x a b
    rw [k]
  · intro x a b
    obtain ⟨v, w, j, k, l⟩ := key x a b
    obtain ⟨g, m, o⟩ := h1
    obtain ⟨-, -, c, -⟩ := table_rise hL R le_rfl (fun g hg => (h0 g hg).trans a) ⟨g, m, lt_of_le_of_lt b o⟩ j j
    have := abs_le.1 l
    norm_num at this
    rw [k]
    show 1 ≤ w
    linarith
  · intro x a b
    obtain ⟨v, w, j, k, l⟩ := key x a b
    obtain ⟨g, m, o⟩ := h1
    obtain ⟨-, -, -, c⟩ := table_rise hL R le_rfl (fun g hg => (h0 g hg).trans a) ⟨g, m, lt_of_le_of_lt b o⟩ j j
    have := abs_le.1 l
    norm_num at this
    rw [k]
    show w ≤ 64
    linarith
  · intro x y a b c
    obtain ⟨v, w, j, k, l⟩ := key x a (b.trans c)
    obtain ⟨v', w', j', k', l'⟩ := key y (a.trans b) c
    obtain ⟨g, m, o⟩ := h1
    obtain ⟨z, -⟩ := table_rise hL R b (fun g hg => (h0 g hg).trans a) ⟨g, m, lt_of_le_of_lt c o⟩ j j'
    have := abs_le.1 l
    have := abs_le.1 l'
    rw [k, k']
    show w ≤ w' + 1 / 2 ^ 42
    norm_num at *
    linarith
  · have main : ∀ x y, 0 ≤ x → x ≤ y → y ≤ txe → y - x ≤ txe * (1 / 2 ^ 42 + 1 / 2 ^ 48) →
        ∃ w w', Fp.interp fl grid row x = .ok w ∧ Fp.interp fl grid row y = .ok w' ∧ |w' - w| ≤ tol := by
      intro x y a b c e
      obtain ⟨v, w, j, k, l⟩ := key x a (b.trans c)
      obtain ⟨v', w', j', k', l'⟩ := key y (a.trans b) c
      obtain ⟨g, m, o⟩ := h1
      obtain ⟨z, z2, -⟩ := table_rise hL R b (fun g hg => (h0 g hg).trans a) ⟨g, m, lt_of_le_of_lt c o⟩ j j'
      refine ⟨w, w', k, k', ?_⟩
      have k1 := abs_le.1 l
      have k2 := abs_le.1 l'
      have k3 := mul_le_mul_of_nonneg_left e hL
      have k4 : 0 ≤ L * txe := mul_nonneg hL t0
      have k5 : L * (txe * (1 / 2 ^ 42 + 1 / 2 ^ 48)) = L * txe * (1 / 2 ^ 42 + 1 / 2 ^ 48) := by ring
      rw [k5] at k3
      norm_num at *
      rw [abs_le]
      constructor <;> linarith
    intro x y a b c d e
    rcases le_total x y with o | o
    · obtain ⟨w, w', p, q, r⟩ := main x y a o d (by have := (abs_le.1 e).1; linarith)
      rw [p, q]
      show |w - w'| ≤ tol
      rw [abs_sub_comm]; exact r
    · obtain ⟨w, w', p, q, r⟩ := main y x c o b (by have := (abs_le.1 e).2; linarith)
      rw [p, q]
      exact r

/-- **C147** (the loop ends for tables).  For a pair of fragments whose level density parameters do not fall with the energy and rise by at
most `L` per MeV, with `L txe / 2^41 + 2^-42` below the tolerance, the sharing with computed interpolation returns, in double arithmetic. -/
theorem C147_tables_end (h : Double fl) {grid rowl rowh : List ℝ} {L rt txe tol : ℝ} (hL : 0 ≤ L) (Rl : RisingRow grid rowl L)
    (Rh : RisingRow grid rowh L) (h0 : ∀ g ∈ grid.head?, g ≤ 0) (h1 : ∃ g ∈ grid, txe < g) (r0 : 1 / 8 ≤ rt) (r1 : rt ≤ 8)
    (ht : (2 : ℝ) ^ (-300 : Int) ≤ txe) (dt : IsDouble txe) (dtol : IsDouble tol) (htol : L * txe / 2 ^ 41 + 1 / 2 ^ 42 ≤ tol)
    (n : Nat) (hn : 63 < tol * n) :
    ∃ u, Fp.shareRT fl (Fp.interp fl grid rowl) (Fp.interp fl grid rowh) rt txe tol (n + 2) = .ok u := by
  have t0 : 0 ≤ txe := le_trans (by positivity) ht
  obtain ⟨f, F⟩ := table_rising h hL Rl h0 h1 t0 htol
  obtain ⟨g, G⟩ := table_rising h hL Rh h0 h1 t0 htol
  have q : 0 ≤ L * txe / 2 ^ 41 := div_nonneg (mul_nonneg hL t0) (by norm_num)
  have e : (0 : ℝ) < 1 / 2 ^ 42 := by norm_num
  exact C147_ends h r0 r1 ht dt dtol (by linarith) e.le (by linarith) F G n hn

/-- A table row over an energy grid: as long as the grid, values from a little above `A` to 63, spacings from `2^-10` to `2^10` MeV, and
values that change by at most `κ A` per MeV. -/
structure SlopedRow (grid row : List ℝ) (A κ : ℝ) : Prop where
  len : grid.length ≤ row.length
  low : ∀ p ∈ row, A + 1 / 2 ^ 43 ≤ p
  high : ∀ p ∈ row, p ≤ 63
  step : ∀ (k : Nat) (e1 e2 : ℝ), grid[k]? = some e1 → grid[k + 1]? = some e2 → 1 / 2 ^ 10 ≤ e2 - e1 ∧ e2 - e1 ≤ 2 ^ 10
  slope : ∀ (k : Nat) (e1 e2 p1 p2 : ℝ), grid[k]? = some e1 → grid[k + 1]? = some e2 → row[k]? = some p1 → row[k + 1]? = some p2 →
    |p2 - p1| ≤ κ * A * (e2 - e1)

theorem nodes_slope {grid row : List ℝ} {A κ : ℝ} (R : SlopedRow grid row A κ) (j : Nat) : ∀ (n : Nat) (e1 e2 p1 p2 : ℝ), grid[j]? = some e1 →
    grid[j + n]? = some e2 → row[j]? = some p1 → row[j + n]? = some p2 → e1 ≤ e2 ∧ |p2 - p1| ≤ κ * A * (e2 - e1) := by
  intro n
  induction n with
  | zero =>
    intro e1 e2 p1 p2 h1 h2 h3 h4
    have a : e1 = e2 := Option.some.inj (h1.symm.trans h2)
    have b : p1 = p2 := Option.some.inj (h3.symm.trans h4)
    subst a b
    simp
  | succ n ih =>
    intro e1 e2 p1 p2 h1 h2 h3 h4
    have l1 : j + n < grid.length := by
      have := (List.getElem?_eq_some_iff.1 h2).1; omega
    have l2 : j + n < row.length := by
      have := (List.getElem?_eq_some_iff.1 h4).1; omega
    obtain ⟨a, b⟩ := ih e1 _ p1 _ h1 (List.getElem?_eq_getElem l1) h3 (List.getElem?_eq_getElem l2)
    have s := R.step _ _ _ (List.getElem?_eq_getElem l1) h2
    have t := R.slope _ _ _ _ _ (List.getElem?_eq_getElem l1) h2 (List.getElem?_eq_getElem l2) h4
    have p : (0 : ℝ) < 1 / 2 ^ 10 := by norm_num
    refine ⟨by linarith, ?_⟩
    rw [abs_le] at *
    constructor <;> linarith [t.1, t.2, b.1, b.2]

theorem table_slope {grid row : List ℝ} {A κ : ℝ} (R : SlopedRow grid row A κ) {x y v w : ℝ} (hxy : x ≤ y)
    (h0 : ∀ g ∈ grid.head?, g ≤ x) (h1 : ∃ g ∈ grid, y < g) (hv : interpRow grid row x = .ok v) (hw : interpRow grid row y = .ok w) :
    |w - v| ≤ κ * A * (y - x) := by
  obtain ⟨g0, m0, l0⟩ := h1
  obtain ⟨j, a1, a2, p1, p2, b1, b2, b3, b4, b5, b6, b7, -⟩ := table_reads R.len h0 ⟨g0, m0, lt_of_le_of_lt hxy l0⟩
  obtain ⟨k, c1, c2, q1, q2, d1, d2, d3, d4, d5, d6, d7, -⟩ := table_reads R.len (fun g hg => (h0 g hg).trans hxy) ⟨g0, m0, l0⟩
  obtain rfl := Res.ok.inj (hv.symm.trans b7)
  obtain rfl := Res.ok.inj (hw.symm.trans d7)
  have sj := R.slope j _ _ _ _ b1 b2 b3 b4
  have sk := R.slope k _ _ _ _ d1 d2 d3 d4
  have tj := (R.step j _ _ b1 b2).1
  have tk := (R.step k _ _ d1 d2).1
  have p0 : (0 : ℝ) < 1 / 2 ^ 10 := by norm_num
  have dj : 0 < a2 - a1 := by linarith
  have dk : 0 < c2 - c1 := by linarith
  have mj : |(p2 - p1) / (a2 - a1)| ≤ κ * A := by rw [abs_div, abs_of_pos dj]; exact (div_le_iff₀ dj).2 sj
  have mk : |(q2 - q1) / (c2 - c1)| ≤ κ * A := by rw [abs_div, abs_of_pos dk]; exact (div_le_iff₀ dk).2 sk
  have ej : p2 = (p2 - p1) / (a2 - a1) * (a2 - a1) + p1 := by field_simp; ring
  have piece : ∀ {m t : ℝ}, |m| ≤ κ * A → 0 ≤ t → |m * t| ≤ κ * A * t := by
    intro m t hm ht
    rw [abs_mul, abs_of_nonneg ht]; exact mul_le_mul_of_nonneg_right hm ht
  generalize hmj : (p2 - p1) / (a2 - a1) = mj' at *
  generalize hmk : (q2 - q1) / (c2 - c1) = mk' at *
  rcases lt_trichotomy j k with hjk | hjk | hjk
  · obtain ⟨n, rfl⟩ : ∃ n, k = j + 1 + n := ⟨k - (j + 1), by omega⟩
    obtain ⟨z1, z2⟩ := nodes_slope R (j + 1) n _ _ _ _ b2 d1 b4 d3
    have u1 := piece mj (by linarith : 0 ≤ a2 - x)
    have u2 := piece mk (by linarith : 0 ≤ y - c1)
    have : mk' * (y - c1) + q1 - (mj' * (x - a1) + p1) = mk' * (y - c1) + (q1 - p2) + mj' * (a2 - x) := by rw [ej]; ring
    rw [this]
    refine (abs_add_three _ _ _).trans ?_
    linarith
  · subst hjk
    have e1 : a1 = c1 := Option.some.inj (b1.symm.trans d1)
    have e2 : a2 = c2 := Option.some.inj (b2.symm.trans d2)
    have e3 : p1 = q1 := Option.some.inj (b3.symm.trans d3)
    have e4 : p2 = q2 := Option.some.inj (b4.symm.trans d4)
    subst e1 e2 e3 e4
    have e5 : mj' = mk' := hmj.symm.trans hmk
    subst e5
    have : mj' * (y - a1) + p1 - (mj' * (x - a1) + p1) = mj' * (y - x) := by ring
    rw [this]
    exact piece mj (by linarith)
  · exfalso
    obtain ⟨n, rfl⟩ : ∃ n, j = k + 1 + n := ⟨j - (k + 1), by omega⟩
    obtain ⟨z1, -⟩ := nodes_slope R (k + 1) n _ _ _ _ d2 b1 d4 b3
    linarith

/-- The computed interpolation of such a row meets the hypotheses of the loop. -/
theorem table_steady (h : Double fl) {grid row : List ℝ} {A κ txe : ℝ} (hA : 1 ≤ A) (R : SlopedRow grid row A κ)
    (h0 : ∀ g ∈ grid.head?, g ≤ 0) (h1 : ∃ g ∈ grid, txe < g) : ∃ f, Steady (Fp.interp fl grid row) f txe A κ (1 / 2 ^ 42) := by
  have inside : ∀ x, 0 ≤ x → x ≤ txe → (∀ g ∈ grid.head?, g ≤ x) ∧ ∃ g ∈ grid, x < g := by
    intro x a b
    obtain ⟨g, m, l⟩ := h1
    exact ⟨fun g hg => (h0 g hg).trans a, g, m, lt_of_le_of_lt b l⟩
  have key : ∀ x, 0 ≤ x → x ≤ txe → ∃ v w, interpRow grid row x = .ok v ∧ Fp.interp fl grid row x = .ok w ∧ |w - v| ≤ 1 / 2 ^ 43 ∧
      A + 1 / 2 ^ 43 ≤ v ∧ v ≤ 63 := by
    intro x a b
    obtain ⟨i0, i1⟩ := inside x a b
    have e : (0 : ℝ) ≤ 1 / 2 ^ 43 := by norm_num
    obtain ⟨v, w, j, k, l⟩ := C147_table h R.len (fun p hp => by linarith [R.low p hp]) (fun p hp => by linarith [R.high p hp]) R.step i0 i1
    obtain ⟨n, e1, e2, t1, t2, v', -, -, m1, m2, -, -, m3, m4, m5, -⟩ := C53_inside grid row R.len x i0 i1
    obtain rfl := Res.ok.inj (j.symm.trans m3)
    exact ⟨v, w, j, k, l, le_trans (le_min (R.low _ (List.mem_of_getElem? m1)) (R.low _ (List.mem_of_getElem? m2))) m4,
      m5.trans (max_le (R.high _ (List.mem_of_getElem? m1)) (R.high _ (List.mem_of_getElem? m2)))⟩
  refine ⟨fun x => match Fp.interp fl grid row x with | .ok w => w | _ => 0, ?_, ?_, ?_, ?_⟩
  · intro x a b
    obtain ⟨v, w, -, k, -⟩ := key x a b
    rw [k]
  · intro x a b
    obtain ⟨v, w, j, k, l, m, -⟩ := key x a b
    have := abs_le.1 l
    rw [k]
    show A ≤ w
    linarith
  · intro x a b
    obtain ⟨v, w, j, k, l, -, m⟩ := key x a b
    have := abs_le.1 l
    rw [k]
    show w ≤ 64
    norm_num at this
    linarith
  · intro x y a b c d
    obtain ⟨v, w, j, k, l, -⟩ := key x a b
    obtain ⟨v', w', j', k', l', -⟩ := key y c d
    rw [k, k']
    show |w - w'| ≤ κ * A * |x - y| + 1 / 2 ^ 42
    have main : |v - v'| ≤ κ * A * |x - y| := by
      rcases le_total x y with o | o
      · have := table_slope R o (inside x a b).1 (inside y c d).2 j j'
        rw [abs_sub_comm, abs_sub_comm x y, abs_of_nonneg (by linarith : 0 ≤ y - x)]; exact this
      · have := table_slope R o (inside y c d).1 (inside x a b).2 j' j
        rw [abs_of_nonneg (by linarith : 0 ≤ x - y)]; exact this
    have k1 := abs_le.1 l
    have k2 := abs_le.1 l'
    have k3 := abs_le.1 main
    rw [abs_le]
    norm_num at *
    constructor <;> linarith

/-- **C147** (the loop ends for tables that vary slowly).  For a pair of fragments whose tabulated level density parameters change by at most
1/16 of their least value per MeV, a total excitation energy up to 30 MeV and a tolerance of at least 1/128, the sharing with computed
interpolation returns in double arithmetic after at most 201 passes, whether the parameters rise or fall. -/
theorem C147_tables_steady (h : Double fl) {grid rowl rowh : List ℝ} {A B rt txe tol : ℝ} (hA : 1 ≤ A) (hB : 1 ≤ B)
    (Rl : SlopedRow grid rowl A (1 / 16)) (Rh : SlopedRow grid rowh B (1 / 16)) (h0 : ∀ g ∈ grid.head?, g ≤ 0) (h1 : ∃ g ∈ grid, txe < g)
    (r0 : 1 / 8 ≤ rt) (r1 : rt ≤ 8) (ht : (2 : ℝ) ^ (-300 : Int) ≤ txe) (ht' : txe ≤ 30) (dt : IsDouble txe) (dtol : IsDouble tol)
    (htol : 1 / 128 ≤ tol) :
    ∃ u, Fp.shareRT fl (Fp.interp fl grid rowl) (Fp.interp fl grid rowh) rt txe tol 201 = .ok u := by
  have t0 : 0 < txe := lt_of_lt_of_le (by positivity) ht
  obtain ⟨f, F⟩ := table_steady h hA Rl h0 h1
  obtain ⟨g, G⟩ := table_steady h hB Rh h0 h1
  have hA2 : A ≤ 64 := (F.low 0 le_rfl t0.le).trans (F.high 0 le_rfl t0.le)
  refine C147_steady h r0 r1 ht dt dtol hA hB (by norm_num) (by norm_num) F G (D := 1 / 2 ^ 33) (by norm_num) ?_ 200 ?_
  · norm_num; linarith
  · have p : (txe * (1 / 16) / 2) ^ 200 ≤ ((30 : ℝ) * (1 / 16) / 2) ^ 200 := pow_le_pow_left₀ (by positivity) (by linarith) 200
    have q : txe * (txe * (1 / 16) / 2) ^ 200 ≤ 30 * (30 * (1 / 16) / 2) ^ 200 := mul_le_mul ht' p (by positivity) (by norm_num)
    have c : (30 : ℝ) * (30 * (1 / 16) / 2) ^ 200 ≤ 1 / 1024 := by norm_num
    have s := mul_le_mul (by linarith : 1 / 16 * A ≤ 4) (add_le_add_right (q.trans c) (1 / 2 ^ 33)) (by positivity) (by norm_num)
    refine le_trans (add_le_add_left s _) (le_trans ?_ htol)
    norm_num

end

/-! ## Concrete cases -/

/-- Mass excesses, neutron energy and kinetic energy of a fission of U-236 (in MeV, rounded): 21 MeV are available. -/
example (h : Double fl) : |totalExc fl (released fl 42 (-80) (-75)) 0 (13 / 2) 182 - 43 / 2| ≤ 1 / 2 ^ 41 := by
  have := C147_available h (mc := 42) (ml := -80) (mh := -75) (einc := 0) (sn := 13 / 2) (tke := 182) (by norm_num) (by norm_num) (by norm_num)
    (by norm_num) (by norm_num) (by norm_num)
  norm_num at this ⊢
  exact this

example (h : Double fl) : ∃ kl kh, Fp.kinetic fl 182 96 140 = some (kl, kh) ∧ |kl + kh - 182| ≤ 182 * (6 / 2 ^ 53) := by
  obtain ⟨kl, kh, e, s, -⟩ := C147_kinetic h (tke := 182) (ml := 96) (mh := 140) (by norm_num) (by norm_num) (by norm_num) (by norm_num)
  exact ⟨kl, kh, e, s⟩

/-- A grid and two rows, one rising and one falling. -/
def shareGrid : List ℝ := [0, 10, 50]
def shareLow : List ℝ := [10, 11, 12]
def shareHigh : List ℝ := [15, 14, 13]

theorem sloped_low : SlopedRow shareGrid shareLow 9 (1 / 16) := by
  refine ⟨by simp [shareGrid, shareLow], ?_, ?_, ?_, ?_⟩
  · intro p hp; simp only [shareLow, List.mem_cons, List.not_mem_nil, or_false] at hp; rcases hp with rfl | rfl | rfl <;> norm_num
  · intro p hp; simp only [shareLow, List.mem_cons, List.not_mem_nil, or_false] at hp; rcases hp with rfl | rfl | rfl <;> norm_num
  · intro k e1 e2 a b
    match k, a, b with
    | 0, a, b => simp [shareGrid] at a b; subst a b; norm_num
    | 1, a, b => simp [shareGrid] at a b; subst a b; norm_num
    | n + 2, a, b => simp [shareGrid] at b
  · intro k e1 e2 p1 p2 a b c d
    match k, a, b, c, d with
    | 0, a, b, c, d => simp [shareGrid, shareLow] at a b c d; subst a b c d; norm_num
    | 1, a, b, c, d => simp [shareGrid, shareLow] at a b c d; subst a b c d; norm_num
    | n + 2, a, b, c, d => simp [shareGrid] at b

theorem sloped_high : SlopedRow shareGrid shareHigh 12 (1 / 16) := by
  refine ⟨by simp [shareGrid, shareHigh], ?_, ?_, ?_, ?_⟩
  · intro p hp; simp only [shareHigh, List.mem_cons, List.not_mem_nil, or_false] at hp; rcases hp with rfl | rfl | rfl <;> norm_num
  · intro p hp; simp only [shareHigh, List.mem_cons, List.not_mem_nil, or_false] at hp; rcases hp with rfl | rfl | rfl <;> norm_num
  · exact sloped_low.step
  · intro k e1 e2 p1 p2 a b c d
    match k, a, b, c, d with
    | 0, a, b, c, d => simp [shareGrid, shareHigh] at a b c d; subst a b c d; norm_num
    | 1, a, b, c, d => simp [shareGrid, shareHigh] at a b c d; subst a b c d; norm_num
    | n + 2, a, b, c, d => simp [shareGrid] at b

/-- 24 MeV are shared between them with a ratio of temperatures of 3/2: the loop returns, and what it returns adds up. -/
example (h : Double fl) : ∃ u, Fp.shareRT fl (Fp.interp fl shareGrid shareLow) (Fp.interp fl shareGrid shareHigh) (3 / 2) 24 (1 / 128) 201 = .ok u := by
  have big : (2 : ℝ) ^ (-300 : Int) ≤ 24 := (zpow_le_one_of_nonpos₀ (by norm_num) (by norm_num)).trans (by norm_num)
  exact C147_tables_steady h (A := 9) (B := 12) (by norm_num) (by norm_num) sloped_low sloped_high (by simp [shareGrid])
    ⟨50, by simp [shareGrid], by norm_num⟩ (by norm_num) (by norm_num) big (by norm_num) (double_of 24 0 (by norm_num) (by norm_num) (by norm_num))
    (double_of 1 (-7) (by norm_num) (by norm_num) (by norm_num)) le_rfl

/-- The hypotheses on what is returned, with constant parameters: 24 MeV, twice as much for the heavy fragment. -/
example (h : Double fl) (u : ℝ × ℝ) (hu : Fp.shareRT fl (fun _ => .ok 8) (fun _ => .ok 16) 1 24 (1 / 128) 3 = .ok u) :
    |u.1 + u.2 - 24| ≤ 24 / 2 ^ 52 ∧ |u.2 - 16| ≤ 24 * (6 / 2 ^ 53) := by
  have big : (2 : ℝ) ^ (-300 : Int) ≤ 24 := (zpow_le_one_of_nonpos₀ (by norm_num) (by norm_num)).trans (by norm_num)
  obtain ⟨-, -, a, p, q, r, ⟨_, e1⟩, ⟨_, e2⟩, -, -, b⟩ := C147_share h (by norm_num) (by norm_num) (fun x y e => by
      obtain rfl := Res.ok.inj e; norm_num) (fun x y e => by obtain rfl := Res.ok.inj e; norm_num) big
    (double_of 24 0 (by norm_num) (by norm_num) (by norm_num)) (double_of 1 (-7) (by norm_num) (by norm_num) (by norm_num)) 3 u hu
  obtain rfl := Res.ok.inj e1
  obtain rfl := Res.ok.inj e2
  refine ⟨a, ?_⟩
  norm_num at b ⊢
  exact b

/-- The same tables from the fission: the energies returned and the kinetic energy add up to what is available. -/
example (h : Double fl) (u : ℝ × ℝ)
    (hu : Fp.excite fl (fun _ => .ok 8) (fun _ => .ok 16) 1 (1 / 128) 42 (-80) (-75) 0 (13 / 2) 182 3 = .ok u) :
    0 < u.1 ∧ 0 < u.2 ∧ |182 + u.1 + u.2 - 407 / 2| ≤ 1 / 2 ^ 40 := by
  have av := C147_available h (mc := 42) (ml := -80) (mh := -75) (einc := 0) (sn := 13 / 2) (tke := 182) (by norm_num) (by norm_num) (by norm_num)
    (by norm_num) (by norm_num) (by norm_num)
  obtain ⟨a, b, c⟩ := C147_balance h (mc := 42) (ml := -80) (mh := -75) (einc := 0) (sn := 13 / 2) (tke := 182) (by norm_num) (by norm_num)
    (fun x y e => by obtain rfl := Res.ok.inj e; norm_num) (fun x y e => by obtain rfl := Res.ok.inj e; norm_num)
    (double_of 1 (-7) (by norm_num) (by norm_num) (by norm_num)) (by norm_num) (by norm_num) (by norm_num) (by norm_num) (by norm_num) (by norm_num) 3 u hu
    (by
      have p := (abs_le.1 av).1
      norm_num at p
      exact (zpow_le_one_of_nonpos₀ (by norm_num) (by norm_num)).trans (by linarith))
  refine ⟨a, b, ?_⟩
  norm_num at c ⊢
  exact c

/-- A rising row for both fragments, with the tolerance of the code rounded up to 1/64. -/
example (h : Double fl) : ∃ u, Fp.shareRT fl (Fp.interp fl shareGrid shareLow) (Fp.interp fl shareGrid shareLow) (3 / 2) 24 (1 / 64) (4033 + 2) = .ok u := by
  have big : (2 : ℝ) ^ (-300 : Int) ≤ 24 := (zpow_le_one_of_nonpos₀ (by norm_num) (by norm_num)).trans (by norm_num)
  have R : RisingRow shareGrid shareLow 1 := by
    refine ⟨sloped_low.len, fun p hp => by have := sloped_low.low p hp; norm_num at this; linarith, sloped_low.high, sloped_low.step, ?_⟩
    intro k e1 e2 p1 p2 a b c d
    match k, a, b, c, d with
    | 0, a, b, c, d => simp [shareGrid, shareLow] at a b c d; subst a b c d; norm_num
    | 1, a, b, c, d => simp [shareGrid, shareLow] at a b c d; subst a b c d; norm_num
    | n + 2, a, b, c, d => simp [shareGrid] at b
  exact C147_tables_end h (by norm_num) R R (by simp [shareGrid]) ⟨50, by simp [shareGrid], by norm_num⟩ (by norm_num) (by norm_num) big
    (double_of 24 0 (by norm_num) (by norm_num) (by norm_num)) (double_of 1 (-6) (by norm_num) (by norm_num) (by norm_num)) (by norm_num) 4033 (by norm_num)

end CGMF.Props

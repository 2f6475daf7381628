import Verif.Model.FloatNeutron
import Verif.Props.FloatPhoton

/-!
# C145: neutrons in the laboratory and the balance of momentum, in double arithmetic
-/

namespace CGMF.Props

open CGMF.Fp
open CGMF.Kin (V3)

variable {fl : ℝ → ℝ}

/-- The square of the length of a vector. -/
def lengthSq (v : V3) : ℝ := v 0 * v 0 + v 1 * v 1 + v 2 * v 2

/-- A call with an energy between 0 and 1/32 of the neutron's rest energy (29 MeV) and a direction. -/
structure GoodCall (fl : ℝ → ℝ) (mn : ℝ) (k : Call) : Prop where
  cos : ∃ c, drawnCos fl k.table k.r2 = some c ∧ |c| ≤ 1
  double : IsDouble k.energy
  nonneg : 0 ≤ k.energy
  small : 32 * k.energy ≤ mn

/-- What a user finds recorded for a neutron emitted with the call `k` by a nucleus of momentum `p`: its direction in the frame of the
nucleus is the drawn one and its energy there the given one, its velocity in the laboratory is the sum of the two velocities, and the
recorded energy is half the mass times the square of that velocity. -/
structure RecordedAs (fl : ℝ → ℝ) (L : Library) (twopi mn : ℝ) (k : Call) (p : V3) (n : Neutron) : Prop where
  drawn : (2 : ℝ) ^ (-300 : Int) ≤ k.energy → ∃ v c, drawnCos fl k.table k.r2 = some c ∧ 0 < v ∧ |v * v - 2 * k.energy / mn| ≤ 2 * k.energy / mn / 2 ^ 51 ∧
    |n.cm 2 - v * c| ≤ v / 2 ^ 52 ∧ |n.cm 0 * L.sin (fl (twopi * k.r1)) - n.cm 1 * L.cos (fl (twopi * k.r1))| ≤ v / 2 ^ 49
  energy : (2 : ℝ) ^ (-300 : Int) ≤ k.energy → |mn / 2 * lengthSq n.cm - k.energy| ≤ k.energy / 2 ^ 46
  lab : ∀ i, |n.lab i - (n.cm i + p i / k.mass)| ≤ 1 / 2 ^ 53
  nonneg : 0 ≤ n.energy
  kinetic : |n.energy - mn / 2 * lengthSq n.lab| ≤ mn / 2 * lengthSq n.lab / 2 ^ 50 + 2 ^ (-1000 : Int)

/-- A direction drawn isotropically. -/
theorem drawn_isotropic (h : Double fl) {r : ℝ} (hr : IsDouble r) (h0 : 0 ≤ r) (h1 : r < 1) : ∃ c, drawnCos fl none r = some c ∧ |c| ≤ 1 := by
  have hi := C124_isotropic h hr h0 h1
  exact ⟨_, rfl, abs_le.2 ⟨hi.1, hi.2.le⟩⟩

/-- A direction drawn from a table. -/
theorem drawn_table (h : Double fl) {n : Nat} {x y : Nat → ℝ} (g : GoodTable n x y) {r : ℝ} (h0 : 0 ≤ r) (h1 : r < 1) :
    ∃ c, drawnCos fl (some ((List.range (n + 1)).map fun i => (x i, y i))) r = some c ∧ |c| ≤ 1 := C124_table h g h0 h1

theorem double_quarter : IsDouble (1 / 4 : ℝ) := by
  have := isFloat_zpow (p := 53) (emin := -1074) (e := -2) (by omega) (by omega)
  norm_num at this ⊢
  exact this

/-- The rounded sum of three squares. -/
theorem sumSquares_close (h : Double fl) (v : V3) :
    0 ≤ sumSquares fl v ∧ |sumSquares fl v - lengthSq v| ≤ lengthSq v / 2 ^ 51 + 6 * (2 ^ (-1074 : Int) / 2) := by
  unfold sumSquares lengthSq
  have any : ∀ w, 0 ≤ w → |fl w - w| ≤ w / 2 ^ 53 + 2 ^ (-1074 : Int) / 2 := fun w hw => by
    have := h.any (x := w) (by norm_num)
    rwa [abs_of_nonneg hw] at this
  have h2 : (0 : ℝ) ≤ 2 ^ (-1074 : Int) / 2 := by positivity
  have h3 : (2 : ℝ) ^ (-1074 : Int) / 2 ≤ 2 ^ (-1074 : Int) / 2 := le_rfl
  generalize (2 : ℝ) ^ (-1074 : Int) / 2 = η at *
  rw [zero_add, h.fix (h.float _)]
  have a0 := mul_self_nonneg (v 0)
  have b0 := mul_self_nonneg (v 1)
  have c0 := mul_self_nonneg (v 2)
  generalize v 0 * v 0 = a at *
  generalize v 1 * v 1 = b at *
  generalize v 2 * v 2 = c at *
  have A0 := h.nonneg a0
  have B0 := h.nonneg b0
  have C0 := h.nonneg c0
  have T0 := h.nonneg (add_nonneg A0 B0)
  have S0 := h.nonneg (add_nonneg T0 C0)
  refine ⟨S0, ?_⟩
  obtain ⟨x1, x2⟩ := abs_le.1 (any _ a0)
  obtain ⟨y1, y2⟩ := abs_le.1 (any _ b0)
  obtain ⟨z1, z2⟩ := abs_le.1 (any _ c0)
  obtain ⟨t1, t2⟩ := abs_le.1 (any _ (add_nonneg A0 B0))
  obtain ⟨s1, s2⟩ := abs_le.1 (any _ (add_nonneg T0 C0))
  generalize fl (fl (fl a + fl b) + fl c) = S at *
  generalize fl (fl a + fl b) = T at *
  generalize fl a = A at *
  generalize fl b = B at *
  generalize fl c = C at *
  rw [abs_le]
  norm_num at x1 x2 y1 y2 z1 z2 t1 t2 s1 s2 ⊢
  constructor <;> linarith

/-- The energy computed from a velocity. -/
theorem kinetic_close (h : Double fl) (v : V3) {mn : ℝ} (m0 : 0 < mn) (m1 : mn ≤ 960) :
    0 ≤ fl (fl (sumSquares fl v * (1 / 2)) * mn) ∧
    |fl (fl (sumSquares fl v * (1 / 2)) * mn) - mn / 2 * lengthSq v| ≤ mn / 2 * lengthSq v / 2 ^ 50 + 2 ^ (-1000 : Int) := by
  obtain ⟨s0, hs⟩ := sumSquares_close h v
  have any : ∀ w, 0 ≤ w → |fl w - w| ≤ w / 2 ^ 53 + 2 ^ (-1074 : Int) / 2 := fun w hw => by
    have := h.any (x := w) (by norm_num)
    rwa [abs_of_nonneg hw] at this
  have n0 : 0 ≤ lengthSq v := by unfold lengthSq; nlinarith [mul_self_nonneg (v 0), mul_self_nonneg (v 1), mul_self_nonneg (v 2)]
  have h2 : (0 : ℝ) ≤ 2 ^ (-1074 : Int) / 2 := by positivity
  have h3 : 2 ^ 20 * ((2 : ℝ) ^ (-1074 : Int) / 2) ≤ 2 ^ (-1000 : Int) := by
    rw [show ((2 : ℝ) ^ (20 : Nat)) = (2 : ℝ) ^ (20 : Int) by norm_cast, mul_div_assoc', ← zpow_add₀ (by norm_num)]
    refine (half_le_self (by positivity)).trans (zpow_le_zpow_right₀ (by norm_num) (by norm_num))
  generalize (2 : ℝ) ^ (-1074 : Int) / 2 = η at *
  generalize (2 : ℝ) ^ (-1000 : Int) = θ at *
  generalize lengthSq v = N at *
  generalize sumSquares fl v = S at *
  have hh0 : 0 ≤ S * (1 / 2) := by linarith
  have H0 := h.nonneg hh0
  have hH := any _ hh0
  have hE := any _ (mul_nonneg H0 m0.le)
  refine ⟨h.nonneg (mul_nonneg H0 m0.le), ?_⟩
  generalize fl (S * (1 / 2)) = H at *
  have hHN : |H - N / 2| ≤ N / 2 * (6 / 2 ^ 53) + 8 * η := by
    obtain ⟨a1, a2⟩ := abs_le.1 hs
    obtain ⟨b1, b2⟩ := abs_le.1 hH
    rw [abs_le]
    norm_num at a1 a2 b1 b2 ⊢
    constructor <;> linarith
  have hm : |H * mn - mn / 2 * N| ≤ mn / 2 * N * (6 / 2 ^ 53) + 8000 * η := by
    rw [show H * mn - mn / 2 * N = mn * (H - N / 2) by ring, abs_mul, abs_of_pos m0]
    have := mul_le_mul_of_nonneg_left hHN m0.le
    have k : mn * η ≤ 960 * η := mul_le_mul_of_nonneg_right m1 h2
    nlinarith
  have q0 : 0 ≤ mn / 2 * N := by positivity
  generalize mn / 2 * N = Q at *
  generalize fl (H * mn) = E at *
  generalize H * mn = G at *
  obtain ⟨a1, a2⟩ := abs_le.1 hm
  obtain ⟨b1, b2⟩ := abs_le.1 hE
  rw [abs_le]
  norm_num at a1 a2 b1 b2 h3 ⊢
  constructor <;> linarith

/-- The square of a rounded root of a rounded quotient. -/
theorem root_square (h : Double fl) {x : ℝ} (hx : (2 : ℝ) ^ (-310 : Int) ≤ x) :
    |fl (Real.sqrt (fl x)) * fl (Real.sqrt (fl x)) - x| ≤ x / 2 ^ 51 := by
  have x0 : 0 < x := lt_of_lt_of_le (by positivity) hx
  have hq := rel53 h (le_trans (zpow_le_zpow_right₀ (by norm_num) (by norm_num)) hx)
  have hq1 : (2 : ℝ) ^ (-310 : Int) ≤ fl x := h.ge_of (isFloat_zpow (by omega) (by omega)) hx
  have hr1 : (2 : ℝ) ^ (-155 : Int) ≤ Real.sqrt (fl x) := by
    refine Real.le_sqrt_of_sq_le ?_
    rw [← zpow_natCast, ← zpow_mul]
    exact hq1
  have hs := rel53 h (le_trans (zpow_le_zpow_right₀ (by norm_num) (by norm_num)) hr1)
  have q0 : 0 ≤ fl x := le_trans (by positivity) hq1
  have rr := Real.mul_self_sqrt q0
  have r0 := Real.sqrt_nonneg (fl x)
  clear hr1 hq1 hx
  generalize fl (Real.sqrt (fl x)) = v at *
  generalize Real.sqrt (fl x) = r at *
  generalize fl x = q at *
  obtain ⟨a1, a2⟩ := abs_le.1 hs
  obtain ⟨b1, b2⟩ := abs_le.1 hq
  have key : |v * v - r * r| ≤ r * r * (2.1 / 2 ^ 53) := by
    rw [show v * v - r * r = (v - r) * (v + r) by ring, abs_mul]
    have v1 : |v + r| ≤ r * 2.05 := by
      norm_num at a1 a2 ⊢
      rw [abs_le]
      constructor <;> linarith
    calc |v - r| * |v + r| ≤ r / 2 ^ 53 * (r * 2.05) := mul_le_mul hs v1 (abs_nonneg _) (by positivity)
      _ = r * r * (2.05 / 2 ^ 53) := by ring
      _ ≤ r * r * (2.1 / 2 ^ 53) := by
        have : 0 ≤ r * r := mul_self_nonneg r
        gcongr
        norm_num
  rw [rr] at key
  obtain ⟨c1, c2⟩ := abs_le.1 key
  rw [abs_le]
  norm_num at b1 b2 c1 c2 ⊢
  constructor <;> linarith

/-- The computed speed. -/
theorem speed_close (h : Double fl) {e mn : ℝ} (m0 : 0 < mn) (m1 : mn ≤ 960) (de : IsDouble e) (he : (2 : ℝ) ^ (-300 : Int) ≤ e) :
    let v := fl (Real.sqrt (fl (fl (2 * e) / mn)))
    (2 : ℝ) ^ (-301 : Int) ≤ v ∧ |v * v - 2 * e / mn| ≤ 2 * e / mn / 2 ^ 51 := by
  intro v
  have e0 : 0 < e := lt_of_lt_of_le (by positivity) he
  have d2 : fl (2 * e) = 2 * e := h.fix (double_twice de)
  have hx : (2 : ℝ) ^ (-310 : Int) ≤ 2 * e / mn := by
    rw [le_div_iff₀ m0]
    have : (2 : ℝ) ^ (-310 : Int) * 1024 = 2 ^ (-300 : Int) := by
      rw [show (1024 : ℝ) = 2 ^ (10 : Int) by norm_num, ← zpow_add₀ (by norm_num)]; norm_num
    have k : (2 : ℝ) ^ (-310 : Int) * mn ≤ (2 : ℝ) ^ (-310 : Int) * 1024 := by gcongr; linarith
    linarith
  have hv : v = fl (Real.sqrt (fl (2 * e / mn))) := by simp only [v, d2]
  have hq1 : (2 : ℝ) ^ (-310 : Int) ≤ fl (2 * e / mn) := h.ge_of (isFloat_zpow (by omega) (by omega)) hx
  have hr1 : (2 : ℝ) ^ (-155 : Int) ≤ Real.sqrt (fl (2 * e / mn)) := by
    refine Real.le_sqrt_of_sq_le ?_
    rw [← zpow_natCast, ← zpow_mul]
    exact hq1
  have hv1 : (2 : ℝ) ^ (-155 : Int) ≤ v := by rw [hv]; exact h.ge_of (isFloat_zpow (by omega) (by omega)) hr1
  refine ⟨(zpow_le_zpow_right₀ (by norm_num) (by norm_num)).trans hv1, ?_⟩
  rw [hv]
  exact root_square h hx

/-- **One neutron**: whatever the random numbers, it is recorded with the drawn direction, the given energy, the sum of the velocities
and its kinetic energy, and the momentum of the nucleus changes by that of the neutron. -/
theorem C145_neutron (h : Double fl) {L : Library} (hL : Accurate L) (hsin : ∀ x, |L.sin x| ≤ 1) (twopi : ℝ) {mn : ℝ} (m0 : 0 < mn) (m1 : mn ≤ 960)
    {p : V3} {k : Call} (g : GoodCall fl mn k) (hm : 0 < k.mass) {b : ℝ} (db : IsDouble b) (db' : IsDouble (1 / 4 + b)) (hb : b ≤ 1 / 2)
    (hp : ∀ i, |p i| ≤ b * k.mass) (hP : ∀ i, |p i| ≤ 2 ^ 15) :
    ∃ n q, emitNeutron fl L twopi mn p k = some (n, q) ∧ RecordedAs fl L twopi mn k p n ∧ (∀ i, |n.lab i| ≤ 1 / 4 + b) ∧
      ∀ i, |q i + mn * n.lab i - p i| ≤ 1 / 2 ^ 37 := by
  obtain ⟨c, ec, hc⟩ := g.cos
  obtain ⟨s, es, s0, s1, hs⟩ := C124_sine h hc
  have e0 := g.nonneg
  have d2 : fl (2 * k.energy) = 2 * k.energy := h.fix (double_twice g.double)
  have q0 : 0 ≤ fl (fl (2 * k.energy) / mn) := h.nonneg (div_nonneg (h.nonneg (by linarith)) m0.le)
  have fd : ∀ a b : ℝ, 0 < b → fdiv fl a b = some (fl (a / b)) := fun a b hb => by rw [fdiv, if_neg hb.ne']
  have eq : fsqrt fl (fl (fl (2 * k.energy) / mn)) = some (fl (Real.sqrt (fl (fl (2 * k.energy) / mn)))) := by rw [fsqrt, if_neg (by linarith)]
  have v0 : 0 ≤ fl (Real.sqrt (fl (fl (2 * k.energy) / mn))) := h.nonneg (Real.sqrt_nonneg _)
  have vf : IsDouble (fl (Real.sqrt (fl (fl (2 * k.energy) / mn)))) := h.float _
  have v4 : fl (Real.sqrt (fl (fl (2 * k.energy) / mn))) ≤ 1 / 4 := by
    refine h.le_of double_quarter (Real.sqrt_le_iff.2 ⟨by norm_num, ?_⟩)
    have := isFloat_zpow (p := 53) (emin := -1074) (e := -4) (by omega) (by omega)
    refine h.le_of (by norm_num at this ⊢; exact this) ?_
    rw [d2, div_le_iff₀ m0]
    have := g.small
    norm_num
    linarith
  have hspeed := fun he => speed_close h m0 m1 g.double he
  refine ⟨_, _, by unfold emitNeutron; simp only [ec, es, eq, fd _ _ m0, fd _ _ hm, bind, pure, Option.bind]; rfl, ?_⟩
  simp only at hspeed
  generalize fl (Real.sqrt (fl (fl (2 * k.energy) / mn))) = v at *
  set phi := fl (twopi * k.r1) with hphi
  have vs : |fl (v * s)| ≤ v := h.abs_le_of vf (by rw [abs_mul, abs_of_nonneg v0, abs_of_nonneg s0]; nlinarith)
  have key : ∀ a b : ℝ, |a| ≤ v → |b| ≤ 1 → |fl (a * b)| ≤ v := fun a b ha hb => h.abs_le_of vf (by
    rw [abs_mul]; nlinarith [abs_nonneg a, abs_nonneg b])
  have w0 : |fl (fl (v * s) * L.cos phi)| ≤ 1 / 4 := (key _ _ vs (hL.cos_le _)).trans v4
  have w1 : |fl (fl (v * s) * L.sin phi)| ≤ 1 / 4 := (key _ _ vs (hsin _)).trans v4
  have w2 : |fl (v * c)| ≤ 1 / 4 := (key _ _ (by rw [abs_of_nonneg v0]) hc).trans v4
  have hk := hL.circle phi
  have hs' : |s * s + c * c - 1| ≤ 1 / 2 ^ 50 := by
    rw [add_comm (s * s)]
    refine hs.trans ?_
    norm_num
  have vec := fun (he : (2 : ℝ) ^ (-301 : Int) ≤ v) => vector_core h he hc hs' hk (hL.cos_le phi)
  have lb : ∀ (w : ℝ) (i : Fin 3), |w| ≤ 1 / 4 → |fl (w + fl (p i / k.mass))| ≤ 1 / 4 + b ∧
      |fl (w + fl (p i / k.mass)) - (w + p i / k.mass)| ≤ 1 / 2 ^ 53 := by
    intro w i hw
    have hpb : |p i / k.mass| ≤ b := by rw [abs_div, abs_of_pos hm, div_le_iff₀ hm]; exact hp i
    have h1 := h.abs_le_of db hpb
    have h2 : |w + fl (p i / k.mass)| ≤ 1 / 4 + b := (abs_add_le _ _).trans (add_le_add hw h1)
    refine ⟨h.abs_le_of db' h2, ?_⟩
    have a := h.error (x := p i / k.mass) (e := -54) (by omega) (by omega) (hpb.trans (by norm_num; linarith))
    have a' := h.error (x := w + fl (p i / k.mass)) (e := -53) (by omega) (by omega) (h2.trans (by norm_num; linarith))
    obtain ⟨a1, a2⟩ := abs_le.1 a
    obtain ⟨c1, c2⟩ := abs_le.1 a'
    rw [abs_le]
    norm_num at a1 a2 c1 c2 ⊢
    constructor <;> linarith
  have mom : ∀ (x : ℝ) (i : Fin 3), |x| ≤ 1 / 4 + b → |fl (p i - fl (mn * x)) + mn * x - p i| ≤ 1 / 2 ^ 37 := by
    intro x i hx
    have hx' : |x| ≤ 3 / 4 := hx.trans (by linarith)
    have hmx : |mn * x| ≤ 720 := by
      rw [abs_mul, abs_of_pos m0]
      nlinarith [abs_nonneg x]
    have a := h.error (x := mn * x) (e := -43) (by omega) (by omega) (hmx.trans (by norm_num))
    obtain ⟨a1, a2⟩ := abs_le.1 a
    obtain ⟨x1, x2⟩ := abs_le.1 hmx
    obtain ⟨p1, p2⟩ := abs_le.1 (hP i)
    have a' := h.error (x := p i - fl (mn * x)) (e := -37) (by omega) (by omega) (by
      norm_num at a1 a2 p1 p2 ⊢
      rw [abs_le]
      constructor <;> linarith)
    obtain ⟨c1, c2⟩ := abs_le.1 a'
    rw [abs_le]
    norm_num at a1 a2 c1 c2 ⊢
    constructor <;> linarith
  have l0 := lb _ 0 w0
  have l1 := lb _ 1 w1
  have l2 := lb _ 2 w2
  refine ⟨⟨?_, ?_, ?_, ?_, ?_⟩, ?_, ?_⟩
  · intro he
    obtain ⟨g1, g2⟩ := hspeed he
    obtain ⟨u1, u2, -⟩ := vec g1
    exact ⟨v, c, ec, lt_of_lt_of_le (by positivity) g1, g2, u1, u2⟩
  · intro he
    obtain ⟨g1, g2⟩ := hspeed he
    obtain ⟨-, -, u3⟩ := vec g1
    have e1 : 0 < k.energy := lt_of_lt_of_le (by positivity) he
    simp only [lengthSq, Matrix.cons_val_zero, Matrix.cons_val_one, Matrix.cons_val]
    rw [show fl (fl (v * s) * L.cos phi) * fl (fl (v * s) * L.cos phi) + fl (fl (v * s) * L.sin phi) * fl (fl (v * s) * L.sin phi) + fl (v * c) * fl (v * c) =
      fl (v * c) * fl (v * c) + fl (fl (v * s) * L.cos phi) * fl (fl (v * s) * L.cos phi) + fl (fl (v * s) * L.sin phi) * fl (fl (v * s) * L.sin phi) by ring]
    generalize fl (v * c) * fl (v * c) + fl (fl (v * s) * L.cos phi) * fl (fl (v * s) * L.cos phi) + fl (fl (v * s) * L.sin phi) * fl (fl (v * s) * L.sin phi) = N at *
    have hN : |N - 2 * k.energy / mn| ≤ 2 * k.energy / mn / 2 ^ 46 := by
      have x0 : 0 < 2 * k.energy / mn := by positivity
      clear g1 he
      generalize 2 * k.energy / mn = X at *
      generalize v * v = V at *
      obtain ⟨a1, a2⟩ := abs_le.1 g2
      obtain ⟨c1, c2⟩ := abs_le.1 u3
      rw [abs_le]
      norm_num at a1 a2 c1 c2 ⊢
      constructor <;> linarith
    rw [show mn / 2 * N - k.energy = mn / 2 * (N - 2 * k.energy / mn) by field_simp, abs_mul, abs_of_pos (by linarith : 0 < mn / 2)]
    calc mn / 2 * |N - 2 * k.energy / mn| ≤ mn / 2 * (2 * k.energy / mn / 2 ^ 46) := by gcongr
      _ = k.energy / 2 ^ 46 := by field_simp
  · intro i
    fin_cases i
    exacts [l0.2, l1.2, l2.2]
  · exact (kinetic_close h _ m0 m1).1
  · exact (kinetic_close h _ m0 m1).2
  · intro i
    fin_cases i
    exacts [l0.1, l1.1, l2.1]
  · intro i
    fin_cases i
    exacts [mom _ 0 l0.1, mom _ 1 l1.1, mom _ 2 l2.1]

/-- The neutrons of a list of calls, each recorded as it should be with the momentum the nucleus has at that time, and the momentum
changing by that of the neutron; `q` is the momentum at the end. -/
def Chain (fl : ℝ → ℝ) (L : Library) (twopi mn : ℝ) : V3 → List Call → List Neutron → V3 → Prop
  | p, [], ns, q => ns = [] ∧ q = p
  | p, k :: ks, ns, q => ∃ n ms p', ns = n :: ms ∧ RecordedAs fl L twopi mn k p n ∧ (∀ i, |p' i + mn * n.lab i - p i| ≤ 1 / 2 ^ 37) ∧
      Chain fl L twopi mn p' ks ms q

/-- The momentum of neutrons. -/
def carried (mn : ℝ) (ns : List Neutron) (i : Fin 3) : ℝ := (ns.map fun n => mn * n.lab i).sum

/-- Momentum is balanced along a chain of any length. -/
theorem chain_balance {L : Library} {twopi mn : ℝ} : ∀ (ks : List Call) (p : V3) (ns : List Neutron) (q : V3), Chain fl L twopi mn p ks ns q →
    ns.length = ks.length ∧ ∀ i, |q i + carried mn ns i - p i| ≤ ks.length / 2 ^ 37
  | [], p, ns, q, hc => by
    obtain ⟨rfl, rfl⟩ := hc
    simp [carried]
  | k :: ks, p, ns, q, hc => by
    obtain ⟨n, ms, p', rfl, -, hb, hr⟩ := hc
    obtain ⟨e, ih⟩ := chain_balance ks p' ms q hr
    refine ⟨by simp [e], fun i => ?_⟩
    have a := abs_le.1 (ih i)
    have b := abs_le.1 (hb i)
    simp only [carried, List.map_cons, List.sum_cons, List.length_cons] at a ⊢
    rw [abs_le]
    push_cast
    norm_num at a b ⊢
    constructor <;> linarith [a.1, a.2, b.1, b.2]

/-- The loop over neutrons, for a bound `B` on the momentum, a bound `b` on the velocity and a bound `g` on the momentum of one neutron. -/
theorem emit_chain (h : Double fl) {L : Library} (hL : Accurate L) (hsin : ∀ x, |L.sin x| ≤ 1) (twopi : ℝ) {mn : ℝ} (m0 : 0 < mn) (m1 : mn ≤ 960)
    {B b g : ℝ} (hB : B ≤ 2 ^ 15) (b0 : 0 ≤ b) (db : IsDouble b) (db' : IsDouble (1 / 4 + b)) (hb : b ≤ 1 / 2) (hg : 960 * (1 / 4 + b) + 1 ≤ g) :
    ∀ (ks : List Call) (p : V3), (∀ k ∈ ks, GoodCall fl mn k ∧ 0 < k.mass ∧ B ≤ b * k.mass) → (∀ i, |p i| + ks.length * g ≤ B) →
      ∃ ns q, emitNeutrons fl L twopi mn p ks = some (ns, q) ∧ Chain fl L twopi mn p ks ns q ∧ ∀ i, |q i| ≤ |p i| + ks.length * g
  | [], p, _, _ => ⟨[], p, rfl, ⟨rfl, rfl⟩, by simp⟩
  | k :: ks, p, hk, hp => by
    obtain ⟨gk, mk, bk⟩ := hk k (by simp)
    have g0 : 0 ≤ g := by linarith
    have pB : ∀ i, |p i| ≤ B := fun i => by
      have := hp i
      have : 0 ≤ ((k :: ks).length : ℝ) * g := by positivity
      linarith
    obtain ⟨n, p', e, hr, hl, hbal⟩ := C145_neutron h hL hsin twopi m0 m1 gk mk db db' hb (fun i => (pB i).trans bk) (fun i => (pB i).trans hB)
    have step : ∀ i, |p' i| ≤ |p i| + g := by
      intro i
      have hm : |mn * n.lab i| ≤ 960 * (1 / 4 + b) := by
        rw [abs_mul, abs_of_pos m0]
        exact mul_le_mul m1 (hl i) (abs_nonneg _) (by norm_num)
      have hb' := abs_le.1 (hbal i)
      have hm' := abs_le.1 hm
      have e1 := le_abs_self (p i)
      have e2 := neg_abs_le (p i)
      rw [abs_le]
      norm_num at hb' hm' hg ⊢
      constructor <;> linarith [hb'.1, hb'.2, hm'.1, hm'.2]
    obtain ⟨ms, q, e', hc, hq⟩ := emit_chain h hL hsin twopi m0 m1 hB b0 db db' hb hg ks p' (fun k' hk' => hk k' (by simp [hk'])) (fun i => by
      have a := hp i
      have b := step i
      simp only [List.length_cons] at a
      push_cast at a
      linarith)
    refine ⟨n :: ms, q, by simp [emitNeutrons, e, e'], ⟨n, ms, p', rfl, hr, hbal, hc⟩, fun i => ?_⟩
    have a := hq i
    have b := step i
    simp only [List.length_cons]
    push_cast
    linarith

theorem double_half : IsDouble (1 / 2 : ℝ) := by
  have := isFloat_zpow (p := 53) (emin := -1074) (e := -1) (by omega) (by omega)
  norm_num at this ⊢
  exact this

/-- A whole multiple of a power of two. -/
theorem double_of {x : ℝ} (m : Int) (e : Int) (hm : |m| ≤ 2 ^ 53) (he : -1074 ≤ e) (hx : x = m * (2 : ℝ) ^ e) : IsDouble x := by
  rw [hx]
  exact isFloat_mul hm he (by norm_num)

/-- **The neutrons of a fragment**, any number of them as long as momenta stay below `2^15` MeV: all are recorded as they should be, and
the momentum of the fragment at the end and those of the neutrons add up to its momentum at the start, up to `2^-37` MeV for each. -/
theorem C145_fragment (h : Double fl) {L : Library} (hL : Accurate L) (hsin : ∀ x, |L.sin x| ≤ 1) (twopi : ℝ) {mn : ℝ} (m0 : 0 < mn) (m1 : mn ≤ 960)
    (ks : List Call) (p : V3) (hk : ∀ k ∈ ks, GoodCall fl mn k ∧ 2 ^ 16 ≤ k.mass) (hp : ∀ i, |p i| + ks.length * 721 ≤ 2 ^ 15) :
    ∃ ns q, emitNeutrons fl L twopi mn p ks = some (ns, q) ∧ Chain fl L twopi mn p ks ns q ∧ ns.length = ks.length ∧
      ∀ i, |q i + carried mn ns i - p i| ≤ ks.length / 2 ^ 37 := by
  obtain ⟨ns, q, e, hc, -⟩ := emit_chain h hL hsin twopi m0 m1 (B := 2 ^ 15) (b := 1 / 2) (g := 721) le_rfl (by norm_num) double_half
    (double_of 3 (-2) (by norm_num) (by norm_num) (by norm_num)) le_rfl (by norm_num) ks p
    (fun k hm => ⟨(hk k hm).1, lt_of_lt_of_le (by norm_num) (hk k hm).2, by have := (hk k hm).2; norm_num at this ⊢; linarith⟩) hp
  exact ⟨ns, q, e, hc, chain_balance ks p ns q hc⟩

/-- The kinetic energy available in the frame of the nucleus, as computed. -/
theorem available_close (h : Double fl) {mc ml mh tke : ℝ} {p : V3} (hmc : 2 ^ 17 ≤ mc) (hl : 0 < ml) (hh : 0 < mh)
    (hm : ml + mh ≤ 2 ^ 18) (t0 : 97 ≤ tke) (t1 : tke ≤ 256) (hp : ∀ i, |p i| ≤ 2 ^ 11) :
    |fl (tke - fl (fl (1 / 2 * fl (ml + mh)) * fl (sumSquares fl p / fl (mc * mc)))) - (tke - 1 / 2 * (ml + mh) * (lengthSq p / (mc * mc)))| ≤
      1 / 2 ^ 40 ∧ 0 ≤ lengthSq p / (mc * mc) ∧ lengthSq p / (mc * mc) ≤ 3 / 2 ^ 12 := by
  have c0 : 0 < mc := lt_of_lt_of_le (by norm_num) hmc
  have sq : ∀ i, 0 ≤ p i * p i ∧ p i * p i ≤ 2 ^ 22 := fun i => ⟨mul_self_nonneg _, by
      rw [← abs_mul_abs_self]
      have := hp i
      have := abs_nonneg (p i)
      nlinarith⟩
  have n0 : 0 ≤ lengthSq p := by unfold lengthSq; linarith [(sq 0).1, (sq 1).1, (sq 2).1]
  have n1 : lengthSq p ≤ 3 * 2 ^ 22 := by unfold lengthSq; linarith [(sq 0).2, (sq 1).2, (sq 2).2]
  obtain ⟨s0, hs⟩ := sumSquares_close h p
  have tiny : 6 * ((2 : ℝ) ^ (-1074 : Int) / 2) ≤ 1 / 2 ^ 60 := by
    have := eta_le (k := 0) (by norm_num)
    rw [zpow_zero, one_mul] at this
    refine (mul_le_mul_of_nonneg_left this (by norm_num)).trans ?_
    norm_num
  have hs' : |sumSquares fl p - lengthSq p| ≤ 1 / 2 ^ 27 := by
    refine hs.trans ?_
    norm_num at n1 tiny ⊢
    linarith
  clear hs tiny
  have M2 : 2 ^ 34 ≤ mc * mc := by nlinarith
  have M0 : 2 ^ 34 ≤ fl (mc * mc) := h.ge_of (double_of 1 34 (by norm_num) (by norm_num) (by norm_num)) M2
  have hM := rel53 h (x := mc * mc) (le_trans (zpow_le_one_of_nonpos₀ (by norm_num) (by norm_num)) (le_trans (by norm_num) M2))
  generalize mc * mc = M at *
  generalize fl M = M' at *
  generalize sumSquares fl p = S at *
  generalize lengthSq p = N at *
  have Mp : 0 < M := lt_of_lt_of_le (by norm_num) M2
  have Mp' : 0 < M' := lt_of_lt_of_le (by norm_num) M0
  have v0 : 0 ≤ N / M := by positivity
  have v1 : N / M ≤ 3 / 2 ^ 12 := by
    rw [div_le_iff₀ Mp]
    norm_num at M2 n1 ⊢
    linarith
  refine ⟨?_, v0, v1⟩
  have hx : |S / M' - N / M| ≤ 1 / 2 ^ 60 := by
    have e : S / M' - N / M = (S - N) / M' + N / M * ((M - M') / M') := by field_simp; ring
    have a : |(S - N) / M'| ≤ 1 / 2 ^ 61 := by
      rw [abs_div, abs_of_pos Mp', div_le_iff₀ Mp']
      refine hs'.trans ?_
      norm_num at M0 ⊢
      linarith
    have b : |(M - M') / M'| ≤ 1 / 2 ^ 52 := by
      rw [abs_div, abs_of_pos Mp', div_le_iff₀ Mp', abs_sub_comm]
      refine hM.trans ?_
      obtain ⟨m1, m2⟩ := abs_le.1 hM
      norm_num at m1 m2 ⊢
      linarith
    have c : |N / M * ((M - M') / M')| ≤ 1 / 2 ^ 61 := by
      rw [abs_mul, abs_of_nonneg v0]
      calc N / M * |(M - M') / M'| ≤ 3 / 2 ^ 12 * (1 / 2 ^ 52) := mul_le_mul v1 b (abs_nonneg _) (by norm_num)
        _ ≤ 1 / 2 ^ 61 := by norm_num
    rw [e]
    refine (abs_add_le _ _).trans ((add_le_add a c).trans (by norm_num))
  have x1 : |S / M'| ≤ 1 / 2 ^ 10 := by
    obtain ⟨a1, a2⟩ := abs_le.1 hx
    rw [abs_le]
    norm_num at a1 a2 v1 ⊢
    constructor <;> linarith
  have hV := h.error (x := S / M') (e := -63) (by omega) (by omega) (x1.trans (by norm_num))
  have hW1 := h.error (x := ml + mh) (e := -35) (by omega) (by omega) (by rw [abs_of_pos (by linarith)]; exact hm.trans (by norm_num))
  have w2 : fl (ml + mh) ≤ 2 ^ 18 := h.le_of (double_of 1 18 (by norm_num) (by norm_num) (by norm_num)) hm
  have w3 : 0 ≤ fl (ml + mh) := h.nonneg (by linarith)
  have hW2 := h.error (x := 1 / 2 * fl (ml + mh)) (e := -36) (by omega) (by omega) (by
    rw [abs_of_nonneg (by linarith)]; norm_num at w2 ⊢; linarith)
  have W0 : 0 ≤ fl (1 / 2 * fl (ml + mh)) := h.nonneg (by linarith)
  have W1 : fl (1 / 2 * fl (ml + mh)) ≤ 2 ^ 17 := h.le_of (double_of 1 17 (by norm_num) (by norm_num) (by norm_num)) (by norm_num at w2 ⊢; linarith)
  generalize fl (1 / 2 * fl (ml + mh)) = W at *
  generalize fl (ml + mh) = w at *
  have hVN : |fl (S / M') - N / M| ≤ 1 / 2 ^ 59 := by
    obtain ⟨a1, a2⟩ := abs_le.1 hx
    obtain ⟨b1, b2⟩ := abs_le.1 hV
    rw [abs_le]
    norm_num at a1 a2 b1 b2 ⊢
    constructor <;> linarith
  have hWm : |W - 1 / 2 * (ml + mh)| ≤ 1 / 2 ^ 35 := by
    obtain ⟨a1, a2⟩ := abs_le.1 hW1
    obtain ⟨b1, b2⟩ := abs_le.1 hW2
    rw [abs_le]
    norm_num at a1 a2 b1 b2 ⊢
    constructor <;> linarith
  generalize fl (S / M') = V at *
  generalize N / M = n at *
  have prod : |W * V - 1 / 2 * (ml + mh) * n| ≤ 1 / 2 ^ 41 := by
    rw [show W * V - 1 / 2 * (ml + mh) * n = W * (V - n) + (W - 1 / 2 * (ml + mh)) * n by ring]
    refine (abs_add_le _ _).trans ?_
    rw [abs_mul, abs_mul, abs_of_nonneg W0, abs_of_nonneg v0]
    calc W * |V - n| + |W - 1 / 2 * (ml + mh)| * n ≤ 2 ^ 17 * (1 / 2 ^ 59) + 1 / 2 ^ 35 * (3 / 2 ^ 12) :=
          add_le_add (mul_le_mul W1 hVN (abs_nonneg _) (by norm_num)) (mul_le_mul hWm v1 v0 (by norm_num))
      _ ≤ 1 / 2 ^ 41 := by norm_num
  have y0 : 0 ≤ 1 / 2 * (ml + mh) * n := mul_nonneg (by linarith) v0
  have y1 : 1 / 2 * (ml + mh) * n ≤ 96 := by
    calc 1 / 2 * (ml + mh) * n ≤ 2 ^ 17 * (3 / 2 ^ 12) := mul_le_mul (by norm_num at hm ⊢; linarith) v1 v0 (by norm_num)
      _ = 96 := by norm_num
  generalize 1 / 2 * (ml + mh) * n = y at *
  obtain ⟨q1, q2⟩ := abs_le.1 prod
  have hP := h.error (x := W * V) (e := -46) (by omega) (by omega) (by
    rw [abs_le]; norm_num at q1 q2 ⊢; constructor <;> linarith)
  generalize W * V = WV at *
  obtain ⟨r1, r2⟩ := abs_le.1 hP
  have hT := h.error (x := tke - fl WV) (e := -44) (by omega) (by omega) (by
    rw [abs_le]; norm_num at q1 q2 r1 r2 ⊢; constructor <;> linarith)
  obtain ⟨s1, s2⟩ := abs_le.1 hT
  rw [abs_le]
  norm_num at q1 q2 r1 r2 s1 s2 ⊢
  constructor <;> linarith

/-- The computed momentum of each fragment in the frame of the nucleus belongs to the available kinetic energy. -/
theorem magnitude_close (h : Double fl) {ml mh t : ℝ} (hl : 1 ≤ ml) (hh : 1 ≤ mh) (hm : ml + mh ≤ 2 ^ 18) (t0 : 1 / 2 ≤ t) (t1 : t ≤ 256)
    (dt : IsDouble t) :
    let v := fl (Real.sqrt (fl (fl (2 * t) / fl (fl (1 / ml) + fl (1 / mh)))))
    |v * v * (1 / ml + 1 / mh) / 2 - t| ≤ 1 / 2 ^ 41 := by
  intro v
  have hbig : ∀ m : ℝ, 0 < m → m ≤ 2 ^ 18 → 1 / 2 ^ 18 ≤ 1 / m := fun m h0 h1 => one_div_le_one_div_of_le h0 h1
  have small : ∀ x : ℝ, 1 / 2 ^ 18 ≤ x → (2 : ℝ) ^ (-400 : Int) ≤ x := fun x hx => by
    refine le_trans ?_ hx
    rw [show (1 : ℝ) / 2 ^ 18 = 2 ^ (-18 : Int) by norm_num]
    exact zpow_le_zpow_right₀ (by norm_num) (by norm_num)
  have a := hbig ml (by linarith) (by linarith)
  have b := hbig mh (by linarith) (by linarith)
  have a' : 1 / ml ≤ 1 := (div_le_one (by linarith)).2 hl
  have b' : 1 / mh ≤ 1 := (div_le_one (by linarith)).2 hh
  have ra := rel53 h (small _ a)
  have rb := rel53 h (small _ b)
  have d2 : fl (2 * t) = 2 * t := h.fix (double_twice dt)
  simp only [v, d2]
  clear v
  generalize 1 / ml = A at *
  generalize 1 / mh = B at *
  have hAB : 1 / 2 ^ 18 ≤ fl A + fl B := by
    obtain ⟨x1, x2⟩ := abs_le.1 ra
    obtain ⟨y1, y2⟩ := abs_le.1 rb
    norm_num at a b x1 x2 y1 y2 ⊢
    linarith
  have rd := rel53 h (small _ hAB)
  have D : |fl (fl A + fl B) - (A + B)| ≤ (A + B) * (3 / 2 ^ 53) := by
    obtain ⟨x1, x2⟩ := abs_le.1 ra
    obtain ⟨y1, y2⟩ := abs_le.1 rb
    obtain ⟨z1, z2⟩ := abs_le.1 rd
    rw [abs_le]
    norm_num at a b x1 x2 y1 y2 z1 z2 ⊢
    constructor <;> linarith
  generalize fl (fl A + fl B) = E at *
  clear ra rb rd hAB
  have s0 : 0 < A + B := by norm_num at a b; linarith
  have s2 : A + B ≤ 2 := by linarith
  generalize A + B = s at *
  have E0 : s / 2 ≤ E := by
    obtain ⟨x1, x2⟩ := abs_le.1 D
    norm_num at x1 x2
    linarith
  have E1 : E ≤ 4 := by
    obtain ⟨x1, x2⟩ := abs_le.1 D
    norm_num at x1 x2
    linarith
  have Ep : 0 < E := by linarith
  have xb : 1 / 4 ≤ 2 * t / E := by rw [le_div_iff₀ Ep]; linarith
  have hx : (2 : ℝ) ^ (-310 : Int) ≤ 2 * t / E := by
    refine le_trans ?_ xb
    rw [show (1 : ℝ) / 4 = 2 ^ (-2 : Int) by norm_num]
    exact zpow_le_zpow_right₀ (by norm_num) (by norm_num)
  have hr := root_square h hx
  generalize fl (Real.sqrt (fl (2 * t / E))) * fl (Real.sqrt (fl (2 * t / E))) = Q at *
  have e : Q * s / 2 - t = (Q - 2 * t / E) * (s / 2) + t * ((s - E) / E) := by field_simp; ring
  have sE : s / E ≤ 2 := by rw [div_le_iff₀ Ep]; linarith
  have k1 : |(Q - 2 * t / E) * (s / 2)| ≤ 1 / 2 ^ 42 := by
    rw [abs_mul, abs_of_pos (by linarith : 0 < s / 2)]
    calc |Q - 2 * t / E| * (s / 2) ≤ 2 * t / E / 2 ^ 51 * (s / 2) := mul_le_mul_of_nonneg_right hr (by linarith)
      _ = t * (s / E) / 2 ^ 51 := by field_simp
      _ ≤ 256 * 2 / 2 ^ 51 := by
        refine div_le_div_of_nonneg_right (mul_le_mul t1 sE (by positivity) (by norm_num)) (by norm_num)
      _ = 1 / 2 ^ 42 := by norm_num
  have k2 : |t * ((s - E) / E)| ≤ 1 / 2 ^ 42 := by
    have : |(s - E) / E| ≤ 6 / 2 ^ 53 := by
      rw [abs_div, abs_of_pos Ep, div_le_iff₀ Ep, abs_sub_comm]
      refine D.trans ?_
      norm_num
      linarith
    rw [abs_mul, abs_of_pos (by linarith : 0 < t)]
    calc t * |(s - E) / E| ≤ 256 * (6 / 2 ^ 53) := mul_le_mul t1 this (abs_nonneg _) (by norm_num)
      _ ≤ 1 / 2 ^ 42 := by norm_num
  rw [e]
  exact (abs_add_le _ _).trans ((add_le_add k1 k2).trans (by norm_num))

/-- **The two fragments**: whatever the random numbers, their momenta are numbers and add up to the momentum of the nucleus. -/
theorem C145_divide (h : Double fl) {L : Library} (hL : Accurate L) (hsin : ∀ x, |L.sin x| ≤ 1) (twopi : ℝ) {mc ml mh tke : ℝ} {p : V3}
    {table : Option (List (ℝ × ℝ))} {r1 r2 : ℝ} (hc : ∃ c, drawnCos fl table r2 = some c ∧ |c| ≤ 1) (hmc : 2 ^ 17 ≤ mc) (hl : 0 < ml) (hh : 0 < mh)
    (hm : ml + mh ≤ 2 ^ 18) (t0 : 96 ≤ tke) (t1 : tke ≤ 256) (hp : ∀ i, |p i| ≤ 2 ^ 11) :
    ∃ l q, divide fl L twopi mc ml mh tke p table r1 r2 = some (l, q) ∧ (∀ i, |l i| ≤ 14336) ∧ (∀ i, |q i| ≤ 14336) ∧
      ∀ i, |l i + q i - p i| ≤ 1 / 2 ^ 37 := by
  obtain ⟨c, ec, c1⟩ := hc
  obtain ⟨s, es, s0, s1, -⟩ := C124_sine h c1
  have c0 : 0 < mc := lt_of_lt_of_le (by norm_num) hmc
  have fd : ∀ a b : ℝ, 0 < b → fdiv fl a b = some (fl (a / b)) := fun a b hb => by rw [fdiv, if_neg hb.ne']
  have sq : ∀ i, 0 ≤ fl (p i * p i) ∧ fl (p i * p i) ≤ 2 ^ 22 := fun i =>
    ⟨h.nonneg (mul_self_nonneg _), h.le_of (double_of 1 22 (by norm_num) (by norm_num) (by norm_num)) (by
      rw [← abs_mul_abs_self]
      have := hp i
      have := abs_nonneg (p i)
      nlinarith)⟩
  have S0 : 0 ≤ sumSquares fl p := (sumSquares_close h p).1
  have S1 : sumSquares fl p ≤ 3 * 2 ^ 22 := by
    unfold sumSquares
    refine h.le_of (double_of 3 22 (by norm_num) (by norm_num) (by norm_num)) ?_
    have a : fl (fl (0 + fl (p 0 * p 0)) + fl (p 1 * p 1)) ≤ 2 * 2 ^ 22 := by
      refine h.le_of (double_of 2 22 (by norm_num) (by norm_num) (by norm_num)) ?_
      have : fl (0 + fl (p 0 * p 0)) ≤ 2 ^ 22 := by rw [zero_add, h.fix (h.float _)]; exact (sq 0).2
      linarith [(sq 1).2]
    linarith [(sq 2).2]
  have M0 : 2 ^ 34 ≤ fl (mc * mc) := h.ge_of (double_of 1 34 (by norm_num) (by norm_num) (by norm_num)) (by nlinarith)
  have M1 : 0 < fl (mc * mc) := lt_of_lt_of_le (by norm_num) M0
  have V0 : 0 ≤ fl (sumSquares fl p / fl (mc * mc)) := h.nonneg (by positivity)
  have V1 : fl (sumSquares fl p / fl (mc * mc)) ≤ 3 / 2 ^ 12 := by
    refine h.le_of (double_of 3 (-12) (by norm_num) (by norm_num) (by norm_num)) ?_
    rw [div_le_iff₀ M1]
    norm_num at M0 S1 ⊢
    linarith
  have W0 : 0 ≤ fl (1 / 2 * fl (ml + mh)) := h.nonneg (mul_nonneg (by norm_num) (h.nonneg (by linarith)))
  have W1 : fl (1 / 2 * fl (ml + mh)) ≤ 2 ^ 17 := by
    refine h.le_of (double_of 1 17 (by norm_num) (by norm_num) (by norm_num)) ?_
    have : fl (ml + mh) ≤ 2 ^ 18 := h.le_of (double_of 1 18 (by norm_num) (by norm_num) (by norm_num)) hm
    norm_num at this ⊢
    linarith
  have T0 : 0 ≤ fl (tke - fl (fl (1 / 2 * fl (ml + mh)) * fl (sumSquares fl p / fl (mc * mc)))) := by
    refine h.nonneg ?_
    have : fl (fl (1 / 2 * fl (ml + mh)) * fl (sumSquares fl p / fl (mc * mc))) ≤ 96 := by
      refine h.le_of (double_of 96 0 (by norm_num) (by norm_num) (by norm_num)) ?_
      calc _ ≤ (2 : ℝ) ^ 17 * (3 / 2 ^ 12) := mul_le_mul W1 V1 V0 (by norm_num)
        _ = 96 := by norm_num
    linarith
  have T1 : fl (tke - fl (fl (1 / 2 * fl (ml + mh)) * fl (sumSquares fl p / fl (mc * mc)))) ≤ 256 := by
    refine h.le_of (double_of 256 0 (by norm_num) (by norm_num) (by norm_num)) ?_
    have := h.nonneg (mul_nonneg W0 V0)
    linarith
  have inv : ∀ m : ℝ, 0 < m → m ≤ 2 ^ 18 → 1 / 2 ^ 18 ≤ fl (1 / m) := fun m h0 h1 =>
    h.ge_of (double_of 1 (-18) (by norm_num) (by norm_num) (by norm_num)) (one_div_le_one_div_of_le h0 h1)
  have D0 : 1 / 2 ^ 17 ≤ fl (fl (1 / ml) + fl (1 / mh)) := by
    refine h.ge_of (double_of 1 (-17) (by norm_num) (by norm_num) (by norm_num)) ?_
    have a := inv ml hl (by linarith)
    have b := inv mh hh (by linarith)
    norm_num at a b ⊢
    linarith
  have D1 : 0 < fl (fl (1 / ml) + fl (1 / mh)) := lt_of_lt_of_le (by norm_num) D0
  have ed : ∀ t : ℝ, 0 ≤ t → t ≤ 256 → 0 ≤ fl (fl (2 * t) / fl (fl (1 / ml) + fl (1 / mh))) ∧ fl (fl (2 * t) / fl (fl (1 / ml) + fl (1 / mh))) ≤ 2 ^ 26 := by
    intro t t0 t1
    have a0 : 0 ≤ fl (2 * t) := h.nonneg (by linarith)
    have a1 : fl (2 * t) ≤ 512 := h.le_of (double_of 512 0 (by norm_num) (by norm_num) (by norm_num)) (by linarith)
    refine ⟨h.nonneg (by positivity), h.le_of (double_of 1 26 (by norm_num) (by norm_num) (by norm_num)) ?_⟩
    rw [div_le_iff₀ D1]
    norm_num at D0 ⊢
    linarith
  obtain ⟨Q0, Q1⟩ := ed _ T0 T1
  have eq : ∀ q : ℝ, 0 ≤ q → fsqrt fl q = some (fl (Real.sqrt q)) := fun q hq => by rw [fsqrt, if_neg (by linarith)]
  have F1 : fl (Real.sqrt (fl (fl (2 * fl (tke - fl (fl (1 / 2 * fl (ml + mh)) * fl (sumSquares fl p / fl (mc * mc))))) / fl (fl (1 / ml) + fl (1 / mh))))) ≤ 2 ^ 13 := by
    refine h.le_of (double_of 1 13 (by norm_num) (by norm_num) (by norm_num)) (Real.sqrt_le_iff.2 ⟨by norm_num, ?_⟩)
    norm_num at Q1 ⊢
    exact Q1
  have F0 : 0 ≤ fl (Real.sqrt (fl (fl (2 * fl (tke - fl (fl (1 / 2 * fl (ml + mh)) * fl (sumSquares fl p / fl (mc * mc))))) / fl (fl (1 / ml) + fl (1 / mh))))) :=
    h.nonneg (Real.sqrt_nonneg _)
  refine ⟨_, _, by unfold divide; simp only [ec, es, eq _ Q0, fd _ _ M1, fd _ _ hl, fd _ _ hh, fd _ _ D1, fd _ _ c0, bind, pure, Option.bind]; rfl, ?_⟩
  generalize fl (Real.sqrt (fl (fl (2 * fl (tke - fl (fl (1 / 2 * fl (ml + mh)) * fl (sumSquares fl p / fl (mc * mc))))) / fl (fl (1 / ml) + fl (1 / mh))))) = pf at *
  set phi := fl (twopi * r1) with hphi
  have d13 : IsDouble (2 ^ 13 : ℝ) := double_of 1 13 (by norm_num) (by norm_num) (by norm_num)
  have key : ∀ a b : ℝ, |a| ≤ 2 ^ 13 → |b| ≤ 1 → |fl (a * b)| ≤ 2 ^ 13 := fun a b ha hb => h.abs_le_of d13 (by
    rw [abs_mul]; nlinarith [abs_nonneg a, abs_nonneg b])
  have pf1 : |pf| ≤ 2 ^ 13 := by rw [abs_of_nonneg F0]; exact F1
  have sb : |s| ≤ 1 := by rw [abs_of_nonneg s0]; exact s1
  have drift : ∀ i, |fl (fl (ml * p i) / mc)| ≤ 2 ^ 12 := by
    intro i
    have a : |fl (ml * p i)| ≤ 2 ^ 29 := by
      refine h.abs_le_of (double_of 1 29 (by norm_num) (by norm_num) (by norm_num)) ?_
      rw [abs_mul, abs_of_pos hl]
      calc ml * |p i| ≤ 2 ^ 18 * 2 ^ 11 := mul_le_mul (by linarith) (hp i) (abs_nonneg _) (by norm_num)
        _ = 2 ^ 29 := by norm_num
    refine h.abs_le_of (double_of 1 12 (by norm_num) (by norm_num) (by norm_num)) ?_
    rw [abs_div, abs_of_pos c0, div_le_iff₀ c0]
    norm_num at a hmc ⊢
    linarith
  have light : ∀ (w : ℝ) (i : Fin 3), |w| ≤ 2 ^ 13 → |fl (w + fl (fl (ml * p i) / mc))| ≤ 12288 := by
    intro w i hw
    refine h.abs_le_of (double_of 12288 0 (by norm_num) (by norm_num) (by norm_num)) ?_
    refine (abs_add_le _ _).trans ?_
    have := drift i
    norm_num at this hw ⊢
    linarith
  have rest : ∀ (x : ℝ) (i : Fin 3), |x| ≤ 12288 → |fl (p i - x)| ≤ 14336 ∧ |x + fl (p i - x) - p i| ≤ 1 / 2 ^ 37 := by
    intro x i hx
    have hd : |p i - x| ≤ 14336 := by
      obtain ⟨a1, a2⟩ := abs_le.1 hx
      obtain ⟨b1, b2⟩ := abs_le.1 (hp i)
      rw [abs_le]
      norm_num at b1 b2 ⊢
      constructor <;> linarith
    refine ⟨h.abs_le_of (double_of 14336 0 (by norm_num) (by norm_num) (by norm_num)) hd, ?_⟩
    have a := h.error (x := p i - x) (e := -37) (by omega) (by omega) (hd.trans (by norm_num))
    obtain ⟨a1, a2⟩ := abs_le.1 a
    rw [abs_le]
    norm_num at a1 a2 ⊢
    constructor <;> linarith
  have l0 := light _ 0 (key _ _ (key _ _ pf1 (hL.cos_le phi)) sb)
  have l1 := light _ 1 (key _ _ (key _ _ pf1 (hsin phi)) sb)
  have l2 := light _ 2 (key _ _ pf1 c1)
  refine ⟨fun i => ?_, fun i => ?_, fun i => ?_⟩
  · fin_cases i
    exacts [l0.trans (by norm_num), l1.trans (by norm_num), l2.trans (by norm_num)]
  · fin_cases i
    exacts [(rest _ 0 l0).1, (rest _ 1 l1).1, (rest _ 2 l2).1]
  · fin_cases i
    exacts [(rest _ 0 l0).2, (rest _ 1 l1).2, (rest _ 2 l2).2]

/-- **The direction and the kinetic energy of the fragments**: relative to the nucleus the light fragment moves along the drawn direction,
with the momentum that belongs to the kinetic energy less that of the motion of the nucleus. -/
theorem C145_direction (h : Double fl) {L : Library} (hL : Accurate L) (hsin : ∀ x, |L.sin x| ≤ 1) (twopi : ℝ) {mc ml mh tke : ℝ} {p l q : V3}
    {table : Option (List (ℝ × ℝ))} {r1 r2 : ℝ} (hc : ∃ c, drawnCos fl table r2 = some c ∧ |c| ≤ 1) (hmc : 2 ^ 17 ≤ mc) (hl : 1 ≤ ml) (hh : 1 ≤ mh)
    (hm : ml + mh ≤ 2 ^ 18) (t0 : 97 ≤ tke) (t1 : tke ≤ 256) (hp : ∀ i, |p i| ≤ 2 ^ 11)
    (e : divide fl L twopi mc ml mh tke p table r1 r2 = some (l, q)) :
    ∃ P c s, drawnCos fl table r2 = some c ∧ 0 ≤ s ∧ |c * c + s * s - 1| ≤ 5 / 2 ^ 53 ∧ 0 ≤ P ∧
      |P * P * (1 / ml + 1 / mh) / 2 - (tke - 1 / 2 * (ml + mh) * (lengthSq p / (mc * mc)))| ≤ 1 / 2 ^ 39 ∧
      |l 0 - (P * L.cos (fl (twopi * r1)) * s + ml * p 0 / mc)| ≤ 1 / 2 ^ 38 ∧
      |l 1 - (P * L.sin (fl (twopi * r1)) * s + ml * p 1 / mc)| ≤ 1 / 2 ^ 38 ∧ |l 2 - (P * c + ml * p 2 / mc)| ≤ 1 / 2 ^ 38 := by
  obtain ⟨c, ec, c1⟩ := hc
  obtain ⟨s, es, s0, s1, hs⟩ := C124_sine h c1
  have c0 : 0 < mc := lt_of_lt_of_le (by norm_num) hmc
  have l0 : 0 < ml := by linarith
  have h0 : 0 < mh := by linarith
  have fd : ∀ a b : ℝ, 0 < b → fdiv fl a b = some (fl (a / b)) := fun a b hb => by rw [fdiv, if_neg hb.ne']
  have eq : ∀ q : ℝ, 0 ≤ q → fsqrt fl q = some (fl (Real.sqrt q)) := fun q hq => by rw [fsqrt, if_neg (by linarith)]
  obtain ⟨ha, v0, v1⟩ := available_close h hmc l0 h0 hm t0 t1 hp
  have M2 : (2 : ℝ) ^ 34 ≤ mc * mc := by nlinarith
  have M1 : 0 < fl (mc * mc) := lt_of_lt_of_le (by norm_num) (h.ge_of (double_of 1 34 (by norm_num) (by norm_num) (by norm_num)) M2)
  have y0 : 0 ≤ 1 / 2 * (ml + mh) * (lengthSq p / (mc * mc)) := mul_nonneg (by linarith) v0
  have y1 : 1 / 2 * (ml + mh) * (lengthSq p / (mc * mc)) ≤ 96 := by
    calc 1 / 2 * (ml + mh) * (lengthSq p / (mc * mc)) ≤ 2 ^ 17 * (3 / 2 ^ 12) :=
          mul_le_mul (by norm_num at hm ⊢; linarith) v1 v0 (by norm_num)
      _ = 96 := by norm_num
  have T0 : 1 / 2 ≤ fl (tke - fl (fl (1 / 2 * fl (ml + mh)) * fl (sumSquares fl p / fl (mc * mc)))) := by
    have := (abs_le.1 ha).1
    norm_num at this ⊢
    linarith
  have T1 : fl (tke - fl (fl (1 / 2 * fl (ml + mh)) * fl (sumSquares fl p / fl (mc * mc)))) ≤ 256 := by
    refine h.le_of (double_of 256 0 (by norm_num) (by norm_num) (by norm_num)) ?_
    have : 0 ≤ fl (fl (1 / 2 * fl (ml + mh)) * fl (sumSquares fl p / fl (mc * mc))) :=
      h.nonneg (mul_nonneg (h.nonneg (mul_nonneg (by norm_num) (h.nonneg (by linarith)))) (h.nonneg (div_nonneg (sumSquares_close h p).1 M1.le)))
    linarith
  have hP := magnitude_close h hl hh hm T0 T1 (h.float _)
  have inv : ∀ m : ℝ, 0 < m → m ≤ 2 ^ 18 → 1 / 2 ^ 18 ≤ fl (1 / m) := fun m h0 h1 =>
    h.ge_of (double_of 1 (-18) (by norm_num) (by norm_num) (by norm_num)) (one_div_le_one_div_of_le h0 h1)
  have D0 : 1 / 2 ^ 17 ≤ fl (fl (1 / ml) + fl (1 / mh)) := by
    refine h.ge_of (double_of 1 (-17) (by norm_num) (by norm_num) (by norm_num)) ?_
    have a := inv ml l0 (by linarith)
    have b := inv mh h0 (by linarith)
    norm_num at a b ⊢
    linarith
  have D1 : 0 < fl (fl (1 / ml) + fl (1 / mh)) := lt_of_lt_of_le (by norm_num) D0
  have ed : ∀ t : ℝ, 0 ≤ t → t ≤ 256 → 0 ≤ fl (fl (2 * t) / fl (fl (1 / ml) + fl (1 / mh))) ∧ fl (fl (2 * t) / fl (fl (1 / ml) + fl (1 / mh))) ≤ 2 ^ 26 := by
    intro t t0 t1
    have a0 : 0 ≤ fl (2 * t) := h.nonneg (by linarith)
    have a1 : fl (2 * t) ≤ 512 := h.le_of (double_of 512 0 (by norm_num) (by norm_num) (by norm_num)) (by linarith)
    refine ⟨h.nonneg (by positivity), h.le_of (double_of 1 26 (by norm_num) (by norm_num) (by norm_num)) ?_⟩
    rw [div_le_iff₀ D1]
    norm_num at D0 ⊢
    linarith
  obtain ⟨Q0, Q1⟩ := ed _ (by linarith) T1
  have F1 : fl (Real.sqrt (fl (fl (2 * fl (tke - fl (fl (1 / 2 * fl (ml + mh)) * fl (sumSquares fl p / fl (mc * mc))))) / fl (fl (1 / ml) + fl (1 / mh))))) ≤ 2 ^ 13 := by
    refine h.le_of (double_of 1 13 (by norm_num) (by norm_num) (by norm_num)) (Real.sqrt_le_iff.2 ⟨by norm_num, ?_⟩)
    norm_num at Q1 ⊢
    exact Q1
  have F0 : 0 ≤ fl (Real.sqrt (fl (fl (2 * fl (tke - fl (fl (1 / 2 * fl (ml + mh)) * fl (sumSquares fl p / fl (mc * mc))))) / fl (fl (1 / ml) + fl (1 / mh))))) :=
    h.nonneg (Real.sqrt_nonneg _)
  unfold divide at e
  simp only [ec, es, eq _ Q0, fd _ _ M1, fd _ _ l0, fd _ _ h0, fd _ _ D1, fd _ _ c0, bind, pure, Option.bind, Option.some.injEq, Prod.mk.injEq] at e
  obtain ⟨rfl, -⟩ := e
  simp only at hP
  refine ⟨_, c, s, ec, s0, hs, F0, ?_, ?_⟩
  · have a := abs_le.1 ha
    have b := abs_le.1 hP
    rw [abs_le]
    norm_num at a b ⊢
    constructor <;> linarith [a.1, a.2, b.1, b.2]
  clear ha hP T0 T1 Q0 Q1 ed
  generalize fl (Real.sqrt (fl (fl (2 * fl (tke - fl (fl (1 / 2 * fl (ml + mh)) * fl (sumSquares fl p / fl (mc * mc))))) / fl (fl (1 / ml) + fl (1 / mh))))) = pf at *
  set phi := fl (twopi * r1) with hphi
  have d13 : IsDouble (2 ^ 13 : ℝ) := double_of 1 13 (by norm_num) (by norm_num) (by norm_num)
  have pr : ∀ a b : ℝ, |a| ≤ 2 ^ 13 → |b| ≤ 1 → |a * b| ≤ 2 ^ 13 := fun a b ha hb => by
    rw [abs_mul]; nlinarith [abs_nonneg a, abs_nonneg b]
  have er : ∀ a b : ℝ, |a| ≤ 2 ^ 13 → |b| ≤ 1 → |fl (a * b) - a * b| ≤ 1 / 2 ^ 41 := fun a b ha hb => by
    have := h.error (x := a * b) (e := -40) (by omega) (by omega) ((pr a b ha hb).trans (by norm_num))
    refine this.trans (by norm_num)
  have key : ∀ a b : ℝ, |a| ≤ 2 ^ 13 → |b| ≤ 1 → |fl (a * b)| ≤ 2 ^ 13 := fun a b ha hb => h.abs_le_of d13 (pr a b ha hb)
  have pf1 : |pf| ≤ 2 ^ 13 := by rw [abs_of_nonneg F0]; exact F1
  have sb : |s| ≤ 1 := by rw [abs_of_nonneg s0]; exact s1
  have twice : ∀ a : ℝ, |a| ≤ 1 → |fl (fl (pf * a) * s) - pf * a * s| ≤ 1 / 2 ^ 40 := by
    intro a ha
    have x := er pf a pf1 ha
    have y := er _ s (key pf a pf1 ha) sb
    rw [show fl (fl (pf * a) * s) - pf * a * s = (fl (fl (pf * a) * s) - fl (pf * a) * s) + (fl (pf * a) - pf * a) * s by ring]
    refine (abs_add_le _ _).trans ?_
    have z : |(fl (pf * a) - pf * a) * s| ≤ 1 / 2 ^ 41 := by
      rw [abs_mul]
      calc |fl (pf * a) - pf * a| * |s| ≤ 1 / 2 ^ 41 * 1 := mul_le_mul x sb (abs_nonneg _) (by norm_num)
        _ = 1 / 2 ^ 41 := by norm_num
    exact (add_le_add y z).trans (by norm_num)
  have drift : ∀ i, |fl (fl (ml * p i) / mc)| ≤ 2 ^ 12 ∧ |fl (fl (ml * p i) / mc) - ml * p i / mc| ≤ 1 / 2 ^ 41 := by
    intro i
    have a' : |ml * p i| ≤ 2 ^ 29 := by
      rw [abs_mul, abs_of_pos l0]
      calc ml * |p i| ≤ 2 ^ 18 * 2 ^ 11 := mul_le_mul (by linarith) (hp i) (abs_nonneg _) (by norm_num)
        _ = 2 ^ 29 := by norm_num
    have a : |fl (ml * p i)| ≤ 2 ^ 29 := h.abs_le_of (double_of 1 29 (by norm_num) (by norm_num) (by norm_num)) a'
    have b : |fl (ml * p i) / mc| ≤ 2 ^ 12 := by
      rw [abs_div, abs_of_pos c0, div_le_iff₀ c0]
      norm_num at a hmc ⊢
      linarith
    refine ⟨h.abs_le_of (double_of 1 12 (by norm_num) (by norm_num) (by norm_num)) b, ?_⟩
    have x := h.error (x := ml * p i) (e := -24) (by omega) (by omega) (a'.trans (by norm_num))
    have y := h.error (x := fl (ml * p i) / mc) (e := -41) (by omega) (by omega) (b.trans (by norm_num))
    have z : |(fl (ml * p i) - ml * p i) / mc| ≤ 1 / 2 ^ 42 := by
      rw [abs_div, abs_of_pos c0, div_le_iff₀ c0]
      refine x.trans ?_
      norm_num at hmc ⊢
      linarith
    rw [show fl (fl (ml * p i) / mc) - ml * p i / mc = (fl (fl (ml * p i) / mc) - fl (ml * p i) / mc) + (fl (ml * p i) - ml * p i) / mc by ring]
    exact (abs_add_le _ _).trans ((add_le_add y z).trans (by norm_num))
  have fin : ∀ (w w' : ℝ) (i : Fin 3), |w| ≤ 2 ^ 13 → |w - w'| ≤ 1 / 2 ^ 40 →
      |fl (w + fl (fl (ml * p i) / mc)) - (w' + ml * p i / mc)| ≤ 1 / 2 ^ 38 := by
    intro w w' i hw hw'
    obtain ⟨d1, d2⟩ := drift i
    have z := h.error (x := w + fl (fl (ml * p i) / mc)) (e := -39) (by omega) (by omega) ((abs_add_le _ _).trans ((add_le_add hw d1).trans (by norm_num)))
    obtain ⟨z1, z2⟩ := abs_le.1 z
    obtain ⟨u1, u2⟩ := abs_le.1 hw'
    obtain ⟨g1, g2⟩ := abs_le.1 d2
    rw [abs_le]
    norm_num at z1 z2 u1 u2 g1 g2 ⊢
    constructor <;> linarith
  exact ⟨fin _ _ 0 (key _ _ (key _ _ pf1 (hL.cos_le phi)) sb) (twice _ (hL.cos_le phi)), fin _ _ 1 (key _ _ (key _ _ pf1 (hsin phi)) sb) (twice _ (hsin phi)),
    fin _ _ 2 (key _ _ pf1 c1) ((er _ _ pf1 c1).trans (by norm_num))⟩

/-- **The momentum of a whole fission**: with up to seven neutrons before fission and up to twenty-five from each fragment, all neutrons are
recorded, and the momenta of all neutrons and of the two fragments at the end add up to that of the incident neutron along the axis, up
to `2^-37` MeV for each neutron and for the division. -/
theorem C145_fission (h : Double fl) {L : Library} (hL : Accurate L) (hsin : ∀ x, |L.sin x| ≤ 1) (twopi : ℝ) {mn en mc ml mh tke : ℝ} (m0 : 0 < mn)
    (m1 : mn ≤ 960) (e0 : 0 ≤ en) (e1 : en ≤ 32) {table : Option (List (ℝ × ℝ))} {r1 r2 : ℝ}
    (hc : ∃ c, drawnCos fl table r2 = some c ∧ |c| ≤ 1) (hmc : 2 ^ 17 ≤ mc) (hl : 0 < ml) (hh : 0 < mh) (hm : ml + mh ≤ 2 ^ 18) (t0 : 96 ≤ tke)
    (t1 : tke ≤ 256) (pre light heavy : List Call) (hpre : ∀ k ∈ pre, GoodCall fl mn k ∧ 2 ^ 17 ≤ k.mass)
    (hlight : ∀ k ∈ light, GoodCall fl mn k ∧ 2 ^ 16 ≤ k.mass) (hheavy : ∀ k ∈ heavy, GoodCall fl mn k ∧ 2 ^ 16 ≤ k.mass)
    (npre : pre.length ≤ 7) (nl : light.length ≤ 25) (nh : heavy.length ≤ 25) :
    ∃ f, fissionMomenta fl L twopi mn en mc ml mh tke table r1 r2 pre light heavy = some f ∧ f.pre.length = pre.length ∧
      f.light.length = light.length ∧ f.heavy.length = heavy.length ∧
      (∃ pc pl ph, Chain fl L twopi mn ![0, 0, fl (Real.sqrt (fl (fl (2 * mn) * en)))] pre f.pre pc ∧ (∀ i, |pl i + ph i - pc i| ≤ 1 / 2 ^ 37) ∧
        Chain fl L twopi mn pl light f.light f.endLight ∧ Chain fl L twopi mn ph heavy f.heavy f.endHeavy) ∧
      ∀ i, |f.endLight i + f.endHeavy i + carried mn f.pre i + carried mn f.light i + carried mn f.heavy i -
        ![0, 0, fl (Real.sqrt (fl (fl (2 * mn) * en)))] i| ≤ (pre.length + light.length + heavy.length + 1) / 2 ^ 37 := by
  have a0 : 0 ≤ fl (2 * mn) := h.nonneg (by linarith)
  have a1 : fl (2 * mn) ≤ 2048 := h.le_of (double_of 2048 0 (by norm_num) (by norm_num) (by norm_num)) (by linarith)
  have b0 : 0 ≤ fl (fl (2 * mn) * en) := h.nonneg (mul_nonneg a0 e0)
  have b1 : fl (fl (2 * mn) * en) ≤ 65536 := h.le_of (double_of 65536 0 (by norm_num) (by norm_num) (by norm_num)) (by
    calc _ ≤ (2048 : ℝ) * 32 := mul_le_mul a1 e1 e0 (by norm_num)
      _ = 65536 := by norm_num)
  have p1 : |fl (Real.sqrt (fl (fl (2 * mn) * en)))| ≤ 256 := by
    refine h.abs_le_of (double_of 256 0 (by norm_num) (by norm_num) (by norm_num)) ?_
    rw [abs_of_nonneg (Real.sqrt_nonneg _)]
    exact Real.sqrt_le_iff.2 ⟨by norm_num, b1.trans (by norm_num)⟩
  have es : fsqrt fl (fl (fl (2 * mn) * en)) = some (fl (Real.sqrt (fl (fl (2 * mn) * en)))) := by rw [fsqrt, if_neg (by linarith)]
  generalize fl (Real.sqrt (fl (fl (2 * mn) * en))) = p0 at *
  have n7 : (pre.length : ℝ) ≤ 7 := by exact_mod_cast npre
  have nl' : (light.length : ℝ) ≤ 25 := by exact_mod_cast nl
  have nh' : (heavy.length : ℝ) ≤ 25 := by exact_mod_cast nh
  have start : ∀ i, |(![0, 0, p0] : V3) i| ≤ 256 := by
    intro i
    fin_cases i
    · norm_num
    · norm_num
    · exact p1
  obtain ⟨ns, pc, ea, ca, ba⟩ := emit_chain h hL hsin twopi m0 m1 (B := 2 ^ 11) (b := 1 / 64) (g := 256) (by norm_num) (by norm_num)
    (double_of 1 (-6) (by norm_num) (by norm_num) (by norm_num)) (double_of 17 (-6) (by norm_num) (by norm_num) (by norm_num)) (by norm_num)
    (by norm_num) pre ![0, 0, p0]
    (fun k hm => ⟨(hpre k hm).1, lt_of_lt_of_le (by norm_num) (hpre k hm).2, by have := (hpre k hm).2; norm_num at this ⊢; linarith⟩)
    (fun i => by have := start i; norm_num; linarith)
  obtain ⟨pl, ph, ed, bl, bh, bal⟩ := C145_divide h hL hsin twopi (r1 := r1) hc hmc hl hh hm t0 t1 (p := pc) (fun i => by
    have := ba i
    have := start i
    norm_num
    linarith)
  obtain ⟨ls, ql, el, cl, kl, sl⟩ := C145_fragment h hL hsin twopi m0 m1 light pl hlight (fun i => by have := bl i; norm_num; linarith)
  obtain ⟨hs, qh, eh, ch, kh, sh⟩ := C145_fragment h hL hsin twopi m0 m1 heavy ph hheavy (fun i => by have := bh i; norm_num; linarith)
  obtain ⟨ka, sa⟩ := chain_balance _ _ _ _ ca
  refine ⟨⟨ns, ls, hs, ql, qh⟩, by simp [fissionMomenta, es, ea, ed, el, eh], ka, kl, kh, ⟨pc, pl, ph, ca, bal, cl, ch⟩, fun i => ?_⟩
  have x1 := abs_le.1 (sa i)
  have x2 := abs_le.1 (bal i)
  have x3 := abs_le.1 (sl i)
  have x4 := abs_le.1 (sh i)
  dsimp only
  generalize (![0, 0, p0] : V3) i = P at *
  rw [abs_le]
  norm_num at x1 x2 x3 x4 ⊢
  constructor <;> linarith [x1.1, x1.2, x2.1, x2.2, x3.1, x3.2, x4.1, x4.2]

namespace NeutronDemo

/-- An isotropic neutron of 1 MeV. -/
noncomputable def call (mass : ℝ) : Call := ⟨mass, 1, none, 1 / 4, 1 / 2⟩

theorem good (h : Double fl) (mass : ℝ) : GoodCall fl 939 (call mass) where
  cos := drawn_isotropic h double_half (by norm_num [call]) (by norm_num [call])
  double := double_of 1 0 (by norm_num) (by norm_num) (by norm_num [call])
  nonneg := by norm_num [call]
  small := by norm_num [call]

/-- A fragment of 4000 MeV that emits two neutrons. -/
example (h : Double fl) : ∃ ns q, emitNeutrons fl ⟨Real.sin, Real.cos, Real.arccos⟩ 6 939 ![0, 0, 4000] [call 131072, call 130000] = some (ns, q) ∧
    ns.length = 2 ∧ |q 2 + carried 939 ns 2 - 4000| ≤ 2 / 2 ^ 37 := by
  obtain ⟨ns, q, e, -, l, b⟩ := C145_fragment h accurate_exact Real.abs_sin_le_one 6 (mn := 939) (by norm_num) (by norm_num)
    [call 131072, call 130000] ![0, 0, 4000] (by
      intro k hk
      simp only [List.mem_cons, List.not_mem_nil, or_false] at hk
      rcases hk with rfl | rfl
      · exact ⟨good h _, by norm_num [call]⟩
      · exact ⟨good h _, by norm_num [call]⟩)
    (by intro i; fin_cases i <;> norm_num)
  exact ⟨ns, q, e, l, b 2⟩

/-- A fission by a neutron of 10 MeV with one neutron before fission, one from the light and two from the heavy fragment. -/
example (h : Double fl) : ∃ f, fissionMomenta fl ⟨Real.sin, Real.cos, Real.arccos⟩ 6 939 10 220000 90000 130000 170 none (1 / 4) (1 / 2)
    [call 221000] [call 90000] [call 130000, call 129000] = some f ∧ f.pre.length = 1 ∧ f.light.length = 1 ∧ f.heavy.length = 2 := by
  obtain ⟨f, e, a, b, c, -⟩ := C145_fission h accurate_exact Real.abs_sin_le_one 6 (mn := 939) (en := 10) (mc := 220000) (ml := 90000) (mh := 130000)
    (tke := 170) (table := none) (r1 := 1 / 4) (r2 := 1 / 2) (by norm_num) (by norm_num) (by norm_num) (by norm_num)
    (drawn_isotropic h double_half (by norm_num) (by norm_num)) (by norm_num) (by norm_num) (by norm_num) (by norm_num) (by norm_num) (by norm_num)
    [call 221000] [call 90000] [call 130000, call 129000]
    (by intro k hk; rw [List.mem_singleton] at hk; subst hk; exact ⟨good h _, by norm_num [call]⟩)
    (by intro k hk; rw [List.mem_singleton] at hk; subst hk; exact ⟨good h _, by norm_num [call]⟩)
    (by
      intro k hk
      simp only [List.mem_cons, List.not_mem_nil, or_false] at hk
      rcases hk with rfl | rfl
      · exact ⟨good h _, by norm_num [call]⟩
      · exact ⟨good h _, by norm_num [call]⟩)
    (by simp) (by simp) (by simp)
  exact ⟨f, e, a, b, c⟩

/-- The neutron of 1 MeV has 1 MeV in the frame of the fragment, up to rounding. -/
example (h : Double fl) : ∃ n q, emitNeutron fl ⟨Real.sin, Real.cos, Real.arccos⟩ 6 939 ![0, 0, 4000] (call 131072) = some (n, q) ∧
    |939 / 2 * lengthSq n.cm - 1| ≤ 1 / 2 ^ 46 ∧ 0 ≤ n.energy := by
  obtain ⟨n, q, e, r, -⟩ := C145_neutron h accurate_exact Real.abs_sin_le_one 6 (mn := 939) (by norm_num) (by norm_num) (p := ![0, 0, 4000])
    (good h 131072) (by norm_num [call]) (b := 1 / 2) double_half (double_of 3 (-2) (by norm_num) (by norm_num) (by norm_num)) le_rfl
    (by intro i; fin_cases i <;> norm_num [call]) (by intro i; fin_cases i <;> norm_num)
  exact ⟨n, q, e, r.energy (zpow_le_one_of_nonpos₀ (by norm_num) (by norm_num)), r.nonneg⟩

/-- A division at rest with 170 MeV along the x axis or nearly so: each fragment has more than 4000 MeV. -/
example (h : Double fl) : ∃ l q P s, divide fl ⟨Real.sin, Real.cos, Real.arccos⟩ 6 220000 90000 130000 170 0 none 0 (1 / 2) = some (l, q) ∧ 4000 ≤ P ∧
    |l 0 - P * Real.cos (fl (6 * 0)) * s| ≤ 1 / 2 ^ 38 := by
  have hc := drawn_isotropic h double_half (by norm_num) (by norm_num)
  obtain ⟨l, q, e, -⟩ := C145_divide h accurate_exact Real.abs_sin_le_one 6 (r1 := 0) hc (mc := 220000) (ml := 90000) (mh := 130000) (tke := 170)
    (p := 0) (by norm_num) (by norm_num) (by norm_num) (by norm_num) (by norm_num) (by norm_num) (by intro i; simp)
  obtain ⟨P, c, s, -, -, -, P0, hP, h0, -⟩ := C145_direction h accurate_exact Real.abs_sin_le_one 6 hc (by norm_num) (by norm_num) (by norm_num) (by norm_num)
    (by norm_num) (by norm_num) (by intro i; simp) e
  refine ⟨l, q, P, s, e, ?_, by simpa using h0⟩
  have := (abs_le.1 hP).1
  simp only [lengthSq, Pi.zero_apply] at this
  norm_num at this
  by_contra hn
  push Not at hn
  nlinarith

end NeutronDemo

end CGMF.Props

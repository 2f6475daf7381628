import Verif.Model.FloatSummary
import Verif.Props.Driver
import Verif.Props.FloatShare

/-!
# C148: the averages of a run in double arithmetic

Readable from the statements with `Spec/Driver.lean` (the content of an event and the averages a user expects) and the few definitions
below.
-/

namespace CGMF.Props

open CGMF CGMF.Fp CGMF.Driver CGMF.Spec

variable {fl : ℝ → ℝ}

/-- Zero, or at least `2^-e`. -/
def Sizeable (e : Nat) (x : ℝ) : Prop := x = 0 ∨ 1 / 2 ^ e ≤ x

/-- An event as CGMF makes them: energies and spins are not negative and, unless zero, not below `2^-300`. -/
structure Regular (e : Content ℝ) : Prop where
  whole : 0 ≤ e.aL ∧ 0 ≤ e.zL ∧ 0 ≤ e.aH ∧ 0 ≤ e.zH
  fragments : ∀ x ∈ [e.keL, e.keH, e.xeL, e.xeH, e.jL, e.jH], Sizeable 300 x
  neutrons : ∀ x ∈ e.lightNeutrons ++ e.heavyNeutrons, Sizeable 300 x.1 ∧ Sizeable 300 x.2
  others : ∀ x ∈ e.preNeutrons ++ e.lightPhotons ++ e.heavyPhotons, Sizeable 300 x

/-- The number of events and particles. -/
def size (e : Content ℝ) : Nat :=
  1 + e.lightNeutrons.length + e.heavyNeutrons.length + e.preNeutrons.length + e.lightPhotons.length + e.heavyPhotons.length

/-- All numbers of a summary, in the order of the screen. -/
def numbersOf (s : Summary ℝ) : List ℝ :=
  [s.zL, s.aL, s.zH, s.aH, s.keL, s.keH, s.tke, s.xeL, s.xeH, s.txe, s.jL, s.jH, s.j, s.nuL, s.nuH, s.nuPre, s.nuTot,
   s.ecmL, s.ecmH, s.ecmPre, s.ecmTot, s.elabL, s.elabH, s.elabPre, s.elabTot, s.nugL, s.nugH, s.nugTot, s.egL, s.egH, s.egTot]

/-! ## Sums -/

/-- Equal to zero both, or equal up to `k` roundings; and not tiny. -/
def Good (e k : Nat) (x y : ℝ) : Prop := Sizeable e x ∧ ((x = 0 ∧ y = 0) ∨ Agree k x y)

theorem Good.mono {e e' k k' : Nat} {x y : ℝ} (g : Good e k x y) (he : e ≤ e') (hk : k ≤ k') : Good e' k' x y := by
  refine ⟨?_, g.2.imp_right fun a => a.mono hk⟩
  rcases g.1 with h | h
  · exact .inl h
  · exact .inr (le_trans (one_div_le_one_div_of_le (by positivity) (pow_le_pow_right₀ (by norm_num) he)) h)

theorem sizeable_pos {e : Nat} {x : ℝ} (h : 1 / 2 ^ e ≤ x) : 0 < x := lt_of_lt_of_le (by positivity) h

theorem good_zero (e : Nat) : Good e 0 0 0 := ⟨.inl rfl, .inl ⟨rfl, rfl⟩⟩

theorem good_refl {e : Nat} {x : ℝ} (h : Sizeable e x) : Good e 0 x x := by
  rcases h with rfl | h
  · exact good_zero e
  · exact ⟨.inr h, .inr (agree_refl (sizeable_pos h))⟩

/-- A rounding. -/
theorem Good.rounded (h : Double fl) {e k : Nat} {x y : ℝ} (g : Good e k x y) (he : e ≤ 400) : Good e (k + 1) (fl x) y := by
  have f0 : fl 0 = 0 := h.fix isFloat_zero
  obtain ⟨g1, g2⟩ := g
  rcases g2 with ⟨rfl, rfl⟩ | g2
  · rw [f0]; exact (good_zero e).mono le_rfl (by omega)
  · rcases g1 with rfl | g1
    · exact absurd g2.1 (lt_irrefl _)
    · refine ⟨.inr (h.ge_of (double_of 1 (-(e : Int)) (by norm_num) (by omega) (by rw [zpow_neg, zpow_natCast]; simp)) g1), .inr ?_⟩
      rw [Nat.add_comm]
      exact g2.round h (small_of he g1)

theorem Good.add {e k : Nat} {x y a b : ℝ} (g : Good e k x y) (g' : Good e k a b) : Good e k (x + a) (y + b) := by
  obtain ⟨g1, g2⟩ := g
  obtain ⟨g3, g4⟩ := g'
  rcases g2 with ⟨rfl, rfl⟩ | g2
  · simpa using ⟨g3, g4⟩
  · rcases g4 with ⟨rfl, rfl⟩ | g4
    · simpa using ⟨g1, .inr g2⟩
    · refine ⟨.inr ?_, .inr (g2.add g4)⟩
      rcases g1 with rfl | g1
      · exact absurd g2.1 (lt_irrefl _)
      · linarith [g4.1]

theorem Good.plus (h : Double fl) {e k : Nat} {x y a b : ℝ} (g : Good e k x y) (g' : Good e k a b) (he : e ≤ 400) :
    Good e (k + 1) (fl (x + a)) (y + b) := (g.add g').rounded h he

theorem Good.div {e k m : Nat} {x y n : ℝ} (g : Good e k x y) (h1 : 1 ≤ n) (h2 : n ≤ 2 ^ m) : Good (e + m) k (x / n) (y / n) := by
  have n0 : 0 < n := by linarith
  refine ⟨?_, ?_⟩
  · rcases g.1 with rfl | h
    · exact .inl (by simp)
    · refine .inr ?_
      rw [pow_add, ← div_div]
      exact div_le_div₀ (sizeable_pos h).le h n0 h2
  · rcases g.2 with ⟨rfl, rfl⟩ | a
    · exact .inl (by simp)
    · exact .inr (by simpa using a.div (agree_refl n0))

/-- The error of `k` roundings. -/
theorem Good.error {e k : Nat} {x y : ℝ} (g : Good e k x y) (hk : k ≤ 2 ^ 52) : |x - y| ≤ y * (k / 2 ^ 52) := by
  rcases g.2 with ⟨rfl, rfl⟩ | ⟨x0, y0, h1, h2⟩
  · simp
  · have kk : (k : ℝ) ≤ 2 ^ 52 := by exact_mod_cast hk
    have k0 : (0 : ℝ) ≤ k := Nat.cast_nonneg k
    have b := one_add_mul_le_pow (a := (-(1 / 2 ^ 53) : ℝ)) (by norm_num) k
    rw [← sub_eq_add_neg] at b
    set d : ℝ := k / 2 ^ 53 with hd
    have d0 : 0 ≤ d := by positivity
    have d1 : d ≤ 1 / 2 := by rw [hd, div_le_iff₀ (by norm_num)]; norm_num at kk ⊢; linarith
    have e2 : (k : ℝ) / 2 ^ 52 = 2 * d := by rw [hd]; ring
    have b' : 1 - d ≤ (1 - 1 / 2 ^ 53 : ℝ) ^ k := by
      refine le_trans (le_of_eq ?_) b
      rw [hd]; ring
    have u1 : y * (1 - d) ≤ x := (mul_le_mul_of_nonneg_left b' y0.le).trans h1
    have u2 : x * (1 - d) ≤ y := (mul_le_mul_of_nonneg_left b' x0.le).trans h2
    rw [e2, abs_le]
    constructor
    · nlinarith
    · nlinarith

/-- The sums over the particles of an event. -/
theorem good_acc (h : Double fl) {e : Nat} (he : e ≤ 400) : ∀ (ys pre post : List ℝ) {k : Nat} {s t : ℝ}, Good e k s t → (∀ v ∈ ys, Sizeable e v) →
    Good e (k + ys.length) (FpRun.accumulate fl (showList (pre ++ ys ++ post)) ys.length (pre.length : Int) s) (t + ys.sum)
  | [], pre, post, k, s, t, g, _ => by simpa [FpRun.accumulate] using g
  | y :: ys, pre, post, k, s, t, g, hv => by
    have hget : showList (pre ++ y :: ys ++ post) (pre.length : Int) = y := by
      unfold showList
      rw [dif_pos (by simp; omega)]
      simp
    have g1 : Good e (k + 1) (fl (s + y)) (t + y) := g.plus h ((good_refl (hv y (by simp))).mono le_rfl (by omega)) he
    have := good_acc h he ys (pre ++ [y]) post g1 (fun v m => hv v (by simp [m]))
    rw [List.length_cons, FpRun.accumulate, hget, List.sum_cons, show k + (ys.length + 1) = k + 1 + ys.length by omega, ← add_assoc t]
    simpa [List.append_assoc] using this

/-- The sum over the ranks, in any order. -/
theorem good_added (h : Double fl) {e k : Nat} (he : e ≤ 400) {ι : Type} {f g : ι → ℝ} {rs : List ι} {s : ℝ} (a : FpRun.Added fl f rs s)
    (hg : ∀ r ∈ rs, Good e k (f r) (g r)) : Good e (k + rs.length) s (rs.map g).sum := by
  have len : ∀ {rs : List ι} {s : ℝ}, FpRun.Added fl f rs s → 1 ≤ rs.length := by
    intro rs s a
    induction a with
    | one r => simp
    | add _ _ p i1 i2 => rw [p.length_eq, List.length_append]; omega
  induction a with
  | one r => simpa using (hg r (by simp)).mono le_rfl (Nat.le_succ k)
  | @add rs ss ts a b a1 a2 p i1 i2 =>
    have l1 := len a1
    have l2 := len a2
    have q := (p.map g).sum_eq
    rw [q, List.map_append, List.sum_append, p.length_eq, List.length_append]
    have g1 := i1 fun r hr => hg r (p.mem_iff.2 (by simp [hr]))
    have g2 := i2 fun r hr => hg r (p.mem_iff.2 (by simp [hr]))
    exact ((g1.mono (k' := k + rs.length + ss.length - 1) le_rfl (by omega)).plus h (g2.mono le_rfl (by omega)) he).mono le_rfl (by omega)

/-! ## The accumulators of a rank -/

/-- Accumulators and exact totals, with `k` roundings in the sums over events and `m` in the sums of these. -/
structure CloseSums (k m : Nat) (s t : Sums ℝ) : Prop where
  aL : s.aL = t.aL
  aH : s.aH = t.aH
  zL : s.zL = t.zL
  zH : s.zH = t.zH
  nuL : s.nuL = t.nuL
  nuH : s.nuH = t.nuH
  nuPre : s.nuPre = t.nuPre
  nuTot : s.nuTot = t.nuTot
  nugL : s.nugL = t.nugL
  nugH : s.nugH = t.nugH
  nugTot : s.nugTot = t.nugTot
  keL : Good 300 k s.keL t.keL
  keH : Good 300 k s.keH t.keH
  xeL : Good 300 k s.xeL t.xeL
  xeH : Good 300 k s.xeH t.xeH
  jL : Good 300 k s.jL t.jL
  jH : Good 300 k s.jH t.jH
  ecmL : Good 300 k s.ecmL t.ecmL
  ecmH : Good 300 k s.ecmH t.ecmH
  elabL : Good 300 k s.elabL t.elabL
  elabH : Good 300 k s.elabH t.elabH
  enPre : Good 300 k s.enPre t.enPre
  egL : Good 300 k s.egL t.egL
  egH : Good 300 k s.egH t.egH
  tke : Good 300 m s.tke t.tke
  txe : Good 300 m s.txe t.txe
  ecm : Good 300 m s.ecm t.ecm
  eLab : Good 300 m s.eLab t.eLab
  eg : Good 300 m s.eg t.eg
  j : Good 301 m s.j t.j

theorem record_close (h : Double fl) {k m : Nat} {s : Sums ℝ} {pre : List (Content ℝ)} (c : CloseSums k m s (totals pre)) {e : Content ℝ}
    (he : Regular e) : CloseSums (k + size e) (k + size e + 2) (FpRun.recordEvent fl s e.view) (totals (pre ++ [e])) := by
  have one : ∀ {x y v : ℝ}, Good 300 k x y → v ∈ [e.keL, e.keH, e.xeL, e.xeH, e.jL, e.jH] → Good 300 (k + size e) (fl (x + v)) (y + v) := by
    intro x y v g hv
    exact (g.plus h ((good_refl (he.fragments v hv)).mono le_rfl (by omega)) (by norm_num)).mono le_rfl (by unfold size; omega)
  have acc : ∀ (ys p q : List ℝ) {x y : ℝ}, Good 300 k x y → (∀ v ∈ ys, Sizeable 300 v) → ys.length ≤ size e →
      Good 300 (k + size e) (FpRun.accumulate fl (showList (p ++ ys ++ q)) ys.length (p.length : Int) x) (y + ys.sum) := by
    intro ys p q x y g hv hl
    exact (good_acc h (by norm_num) ys p q g hv).mono le_rfl (by omega)
  have sum2 : ∀ {x y a b : ℝ}, Good 300 (k + size e) x y → Good 300 (k + size e) a b → Good 300 (k + size e + 1) (fl (x + a)) (y + b) :=
    fun g g' => g.plus h g' (by norm_num)
  have gkL : Good 300 (k + size e) (fl (s.keL + e.keL)) ((totals pre).keL + e.keL) := one c.keL (by simp)
  have gkH : Good 300 (k + size e) (fl (s.keH + e.keH)) ((totals pre).keH + e.keH) := one c.keH (by simp)
  have gxL : Good 300 (k + size e) (fl (s.xeL + e.xeL)) ((totals pre).xeL + e.xeL) := one c.xeL (by simp)
  have gxH : Good 300 (k + size e) (fl (s.xeH + e.xeH)) ((totals pre).xeH + e.xeH) := one c.xeH (by simp)
  have gjL : Good 300 (k + size e) (fl (s.jL + e.jL)) ((totals pre).jL + e.jL) := one c.jL (by simp)
  have gjH : Good 300 (k + size e) (fl (s.jH + e.jH)) ((totals pre).jH + e.jH) := one c.jH (by simp)
  have gcL : Good 300 (k + size e) (FpRun.accumulate fl e.view.cmN e.view.nuL 0 s.ecmL) ((totals pre).ecmL + (e.lightNeutrons.map Prod.fst).sum) := by
    have := acc (e.lightNeutrons.map Prod.fst) [] (e.heavyNeutrons.map Prod.fst) c.ecmL (by
      intro v hv; obtain ⟨x, hx, rfl⟩ := List.mem_map.1 hv; exact (he.neutrons x (by simp [hx])).1) (by simp [size]; omega)
    simpa [Content.view] using this
  have glL : Good 300 (k + size e) (FpRun.accumulate fl e.view.labN e.view.nuL 0 s.elabL) ((totals pre).elabL + (e.lightNeutrons.map Prod.snd).sum) := by
    have := acc (e.lightNeutrons.map Prod.snd) [] (e.heavyNeutrons.map Prod.snd) c.elabL (by
      intro v hv; obtain ⟨x, hx, rfl⟩ := List.mem_map.1 hv; exact (he.neutrons x (by simp [hx])).2) (by simp [size]; omega)
    simpa [Content.view] using this
  have gcH : Good 300 (k + size e) (FpRun.accumulate fl e.view.cmN e.view.nuH e.view.nuL s.ecmH) ((totals pre).ecmH + (e.heavyNeutrons.map Prod.fst).sum) := by
    have := acc (e.heavyNeutrons.map Prod.fst) (e.lightNeutrons.map Prod.fst) [] c.ecmH (by
      intro v hv; obtain ⟨x, hx, rfl⟩ := List.mem_map.1 hv; exact (he.neutrons x (by simp [hx])).1) (by simp [size]; omega)
    simpa [Content.view] using this
  have glH : Good 300 (k + size e) (FpRun.accumulate fl e.view.labN e.view.nuH e.view.nuL s.elabH) ((totals pre).elabH + (e.heavyNeutrons.map Prod.snd).sum) := by
    have := acc (e.heavyNeutrons.map Prod.snd) (e.lightNeutrons.map Prod.snd) [] c.elabH (by
      intro v hv; obtain ⟨x, hx, rfl⟩ := List.mem_map.1 hv; exact (he.neutrons x (by simp [hx])).2) (by simp [size]; omega)
    simpa [Content.view] using this
  have gpr : Good 300 (k + size e) (FpRun.accumulate fl e.view.preN e.view.nuPre 0 s.enPre) ((totals pre).enPre + e.preNeutrons.sum) := by
    have := acc e.preNeutrons [] [] c.enPre (fun v hv => he.others v (by simp [hv])) (by simp [size]; omega)
    simpa [Content.view] using this
  have ggL : Good 300 (k + size e) (FpRun.accumulate fl e.view.phE e.view.nugL 0 s.egL) ((totals pre).egL + e.lightPhotons.sum) := by
    have := acc e.lightPhotons [] e.heavyPhotons c.egL (fun v hv => he.others v (by simp [hv])) (by simp [size]; omega)
    simpa [Content.view] using this
  have ggH : Good 300 (k + size e) (FpRun.accumulate fl e.view.phE e.view.nugH e.view.nugL s.egH) ((totals pre).egH + e.heavyPhotons.sum) := by
    have := acc e.heavyPhotons e.lightPhotons [] c.egH (fun v hv => he.others v (by simp [hv])) (by simp [size])
    simpa [Content.view] using this
  have up : ∀ {x y : ℝ}, Good 300 (k + size e + 1) x y → Good 300 (k + size e + 2) x y := fun g => g.mono le_rfl (by omega)
  have hj : Good 301 (k + size e + 2) (fl (fl (fl (s.jL + e.jL) + fl (s.jH + e.jH)) / 2))
      (((totals pre).jL + e.jL + ((totals pre).jH + e.jH)) / 2) :=
    ((sum2 gjL gjH).div (m := 1) (by norm_num) (by norm_num)).rounded h (by norm_num)
  have three : ∀ {x y a b u v : ℝ}, Good 300 (k + size e) x y → Good 300 (k + size e) a b → Good 300 (k + size e) u v →
      Good 300 (k + size e + 2) (fl (fl (x + a) + u)) (y + b + v) :=
    fun g g' g'' => (sum2 g g').plus h (g''.mono le_rfl (by omega)) (by norm_num)
  have t : ∀ f : Content ℝ → ℝ, ((pre ++ [e]).map f).sum = (pre.map f).sum + f e := by intro f; simp
  have ti : ∀ f : Content ℝ → Int, ((pre ++ [e]).map f).sum = (pre.map f).sum + f e := by intro f; simp
  constructor
  · rw [show (totals (pre ++ [e])).aL = _ from ti _]; exact congrArg (· + e.aL) c.aL
  · rw [show (totals (pre ++ [e])).aH = _ from ti _]; exact congrArg (· + e.aH) c.aH
  · rw [show (totals (pre ++ [e])).zL = _ from ti _]; exact congrArg (· + e.zL) c.zL
  · rw [show (totals (pre ++ [e])).zH = _ from ti _]; exact congrArg (· + e.zH) c.zH
  · rw [show (totals (pre ++ [e])).nuL = _ from ti _]; exact congrArg (· + (e.lightNeutrons.length : Int)) c.nuL
  · rw [show (totals (pre ++ [e])).nuH = _ from ti _]; exact congrArg (· + (e.heavyNeutrons.length : Int)) c.nuH
  · rw [show (totals (pre ++ [e])).nuPre = _ from ti _]; exact congrArg (· + (e.preNeutrons.length : Int)) c.nuPre
  · show s.nuL + e.lightNeutrons.length + (s.nuH + e.heavyNeutrons.length) + (s.nuPre + e.preNeutrons.length) = _
    rw [c.nuL, c.nuH, c.nuPre]
    simp only [totals, ti]
  · rw [show (totals (pre ++ [e])).nugL = _ from ti _]; exact congrArg (· + (e.lightPhotons.length : Int)) c.nugL
  · rw [show (totals (pre ++ [e])).nugH = _ from ti _]; exact congrArg (· + (e.heavyPhotons.length : Int)) c.nugH
  · show s.nugL + e.lightPhotons.length + (s.nugH + e.heavyPhotons.length) = _
    rw [c.nugL, c.nugH]
    simp only [totals, ti]
  · rw [show (totals (pre ++ [e])).keL = _ from t _]; exact gkL
  · rw [show (totals (pre ++ [e])).keH = _ from t _]; exact gkH
  · rw [show (totals (pre ++ [e])).xeL = _ from t _]; exact gxL
  · rw [show (totals (pre ++ [e])).xeH = _ from t _]; exact gxH
  · rw [show (totals (pre ++ [e])).jL = _ from t _]; exact gjL
  · rw [show (totals (pre ++ [e])).jH = _ from t _]; exact gjH
  · rw [show (totals (pre ++ [e])).ecmL = _ from t _]; exact gcL
  · rw [show (totals (pre ++ [e])).ecmH = _ from t _]; exact gcH
  · rw [show (totals (pre ++ [e])).elabL = _ from t _]; exact glL
  · rw [show (totals (pre ++ [e])).elabH = _ from t _]; exact glH
  · rw [show (totals (pre ++ [e])).enPre = _ from t _]; exact gpr
  · rw [show (totals (pre ++ [e])).egL = _ from t _]; exact ggL
  · rw [show (totals (pre ++ [e])).egH = _ from t _]; exact ggH
  · simp only [totals, t]; exact up (sum2 gkL gkH)
  · simp only [totals, t]; exact up (sum2 gxL gxH)
  · simp only [totals, t]; exact three gcL gcH gpr
  · simp only [totals, t]; exact three glL glH gpr
  · simp only [totals, t]; exact up (sum2 ggL ggH)
  · simp only [totals, t]; exact hj

theorem rank_close (h : Double fl) (evs : List (Content ℝ)) (he : ∀ e ∈ evs, Regular e) :
    CloseSums (evs.map size).sum ((evs.map size).sum + 2) (FpRun.rankSums fl (evs.map Content.view)) (totals evs) := by
  induction evs using List.reverseRecOn with
  | nil =>
    have z : ∀ e k, Good e k 0 0 := fun e k => (good_zero e).mono le_rfl (by omega)
    constructor <;> first | rfl | (simp only [FpRun.rankSums, totals, Sums.zero]; simpa using z _ _)
  | append_singleton es e ih =>
    have := record_close h (ih fun x hx => he x (by simp [hx])) (he e (by simp))
    simpa [FpRun.rankSums, List.foldl_append] using this

/-- Totals of all ranks from those of the ranks. -/
theorem totals_flatten {M : Type} [AddCommMonoid M] (f : Sums ℝ → M) (h0 : f (totals []) = 0) (ha : ∀ a b : Sums ℝ, f (a.add b) = f a + f b)
    (ranks : List (List (Content ℝ))) : (ranks.map fun r => f (totals r)).sum = f (totals ranks.flatten) := by
  induction ranks with
  | nil => simp [h0]
  | cons r rs ih => rw [List.map_cons, List.sum_cons, ih, List.flatten_cons, ← totals_append, ha]

/-- The accumulators of rank 0 after the reduction. -/
theorem reduced_close (h : Double fl) (ranks : List (List (Content ℝ))) (he : ∀ r ∈ ranks, ∀ e ∈ r, Regular e) {s : Sums ℝ}
    (hs : FpRun.Reduced fl (fun r : List (Content ℝ) => FpRun.rankSums fl (r.map Content.view)) ranks s) {T : Nat}
    (hT : (ranks.flatten.map size).sum + 2 + ranks.length ≤ T) : CloseSums T T s (totals ranks.flatten) := by
  have small : ∀ r ∈ ranks, (r.map size).sum ≤ (ranks.flatten.map size).sum := by
    intro r hr
    rw [List.map_flatten, List.sum_flatten, List.map_map]
    exact List.single_le_sum (by simp) _ (List.mem_map.2 ⟨r, hr, rfl⟩)
  have c : ∀ r ∈ ranks, CloseSums (ranks.flatten.map size).sum ((ranks.flatten.map size).sum + 2) (FpRun.rankSums fl (r.map Content.view)) (totals r) := by
    intro r hr
    have q := small r hr
    have c := rank_close h r (he r hr)
    obtain ⟨c1, c2, c3, c4, c5, c6, c7, c8, c9, c10, c11, d1, d2, d3, d4, d5, d6, d7, d8, d9, d10, d11, d12, d13, e1, e2, e3, e4, e5, e6⟩ := c
    exact ⟨c1, c2, c3, c4, c5, c6, c7, c8, c9, c10, c11, d1.mono le_rfl q, d2.mono le_rfl q, d3.mono le_rfl q, d4.mono le_rfl q, d5.mono le_rfl q,
      d6.mono le_rfl q, d7.mono le_rfl q, d8.mono le_rfl q, d9.mono le_rfl q, d10.mono le_rfl q, d11.mono le_rfl q, d12.mono le_rfl q, d13.mono le_rfl q,
      e1.mono le_rfl (by omega), e2.mono le_rfl (by omega), e3.mono le_rfl (by omega), e4.mono le_rfl (by omega), e5.mono le_rfl (by omega),
      e6.mono le_rfl (by omega)⟩
  have whole : ∀ (f : Sums ℝ → Int), f (totals []) = 0 → (∀ a b : Sums ℝ, f (a.add b) = f a + f b) →
      (∀ r ∈ ranks, f (FpRun.rankSums fl (r.map Content.view)) = f (totals r)) →
      (ranks.map fun r => f (FpRun.rankSums fl (r.map Content.view))).sum = f (totals ranks.flatten) := by
    intro f h0 ha hr
    rw [List.map_congr_left hr, totals_flatten f h0 ha]
  have real : ∀ (f : Sums ℝ → ℝ) (e k : Nat), e ≤ 400 → k ≤ (ranks.flatten.map size).sum + 2 → f (totals []) = 0 →
      (∀ a b : Sums ℝ, f (a.add b) = f a + f b) → (∀ r ∈ ranks, Good e k (f (FpRun.rankSums fl (r.map Content.view))) (f (totals r))) →
      ∀ x, FpRun.Added fl (fun r : List (Content ℝ) => f (FpRun.rankSums fl (r.map Content.view))) ranks x → Good e T x (f (totals ranks.flatten)) := by
    intro f e k he hk h0 ha hr x a
    have := good_added h he a hr
    rw [totals_flatten f h0 ha] at this
    exact this.mono le_rfl (by omega)
  have z : ∀ f : Content ℝ → ℝ, (([] : List (Content ℝ)).map f).sum = 0 := fun _ => rfl
  constructor
  · rw [hs.aL]; exact whole Sums.aL rfl (fun _ _ => rfl) fun r hr => (c r hr).aL
  · rw [hs.aH]; exact whole Sums.aH rfl (fun _ _ => rfl) fun r hr => (c r hr).aH
  · rw [hs.zL]; exact whole Sums.zL rfl (fun _ _ => rfl) fun r hr => (c r hr).zL
  · rw [hs.zH]; exact whole Sums.zH rfl (fun _ _ => rfl) fun r hr => (c r hr).zH
  · rw [hs.nuL]; exact whole Sums.nuL rfl (fun _ _ => rfl) fun r hr => (c r hr).nuL
  · rw [hs.nuH]; exact whole Sums.nuH rfl (fun _ _ => rfl) fun r hr => (c r hr).nuH
  · rw [hs.nuPre]; exact whole Sums.nuPre rfl (fun _ _ => rfl) fun r hr => (c r hr).nuPre
  · rw [hs.nuTot]; exact whole Sums.nuTot rfl (fun _ _ => rfl) fun r hr => (c r hr).nuTot
  · rw [hs.nugL]; exact whole Sums.nugL rfl (fun _ _ => rfl) fun r hr => (c r hr).nugL
  · rw [hs.nugH]; exact whole Sums.nugH rfl (fun _ _ => rfl) fun r hr => (c r hr).nugH
  · rw [hs.nugTot]; exact whole Sums.nugTot rfl (fun _ _ => rfl) fun r hr => (c r hr).nugTot
  · exact real Sums.keL 300 _ (by norm_num) (by omega) rfl (fun _ _ => rfl) (fun r hr => (c r hr).keL) _ hs.keL
  · exact real Sums.keH 300 _ (by norm_num) (by omega) rfl (fun _ _ => rfl) (fun r hr => (c r hr).keH) _ hs.keH
  · exact real Sums.xeL 300 _ (by norm_num) (by omega) rfl (fun _ _ => rfl) (fun r hr => (c r hr).xeL) _ hs.xeL
  · exact real Sums.xeH 300 _ (by norm_num) (by omega) rfl (fun _ _ => rfl) (fun r hr => (c r hr).xeH) _ hs.xeH
  · exact real Sums.jL 300 _ (by norm_num) (by omega) rfl (fun _ _ => rfl) (fun r hr => (c r hr).jL) _ hs.jL
  · exact real Sums.jH 300 _ (by norm_num) (by omega) rfl (fun _ _ => rfl) (fun r hr => (c r hr).jH) _ hs.jH
  · exact real Sums.ecmL 300 _ (by norm_num) (by omega) rfl (fun _ _ => rfl) (fun r hr => (c r hr).ecmL) _ hs.ecmL
  · exact real Sums.ecmH 300 _ (by norm_num) (by omega) rfl (fun _ _ => rfl) (fun r hr => (c r hr).ecmH) _ hs.ecmH
  · exact real Sums.elabL 300 _ (by norm_num) (by omega) rfl (fun _ _ => rfl) (fun r hr => (c r hr).elabL) _ hs.elabL
  · exact real Sums.elabH 300 _ (by norm_num) (by omega) rfl (fun _ _ => rfl) (fun r hr => (c r hr).elabH) _ hs.elabH
  · exact real Sums.enPre 300 _ (by norm_num) (by omega) rfl (fun _ _ => rfl) (fun r hr => (c r hr).enPre) _ hs.enPre
  · exact real Sums.egL 300 _ (by norm_num) (by omega) rfl (fun _ _ => rfl) (fun r hr => (c r hr).egL) _ hs.egL
  · exact real Sums.egH 300 _ (by norm_num) (by omega) rfl (fun _ _ => rfl) (fun r hr => (c r hr).egH) _ hs.egH
  · exact real Sums.tke 300 _ (by norm_num) le_rfl (by simp [totals]) (fun _ _ => rfl) (fun r hr => (c r hr).tke) _ hs.tke
  · exact real Sums.txe 300 _ (by norm_num) le_rfl (by simp [totals]) (fun _ _ => rfl) (fun r hr => (c r hr).txe) _ hs.txe
  · exact real Sums.ecm 300 _ (by norm_num) le_rfl (by simp [totals]) (fun _ _ => rfl) (fun r hr => (c r hr).ecm) _ hs.ecm
  · exact real Sums.eLab 300 _ (by norm_num) le_rfl (by simp [totals]) (fun _ _ => rfl) (fun r hr => (c r hr).eLab) _ hs.eLab
  · exact real Sums.eg 300 _ (by norm_num) le_rfl (by simp [totals]) (fun _ _ => rfl) (fun r hr => (c r hr).eg) _ hs.eg
  · exact real Sums.j 301 _ (by norm_num) le_rfl (by simp [totals]) (fun _ _ => rfl) (fun r hr => (c r hr).j) _ hs.j

/-! ## The summary -/

/-- The averages a user expects, from the exact totals. -/
theorem spec_of_totals (evs : List (Content ℝ)) (hne : evs ≠ []) : specSummary evs = Driver.summary (totals evs) (evs.length : Int) := by
  have := C10_summary [evs] evs.length (by simp) (by simp) (List.length_pos_iff.2 hne)
  simp only [List.map_cons, List.map_nil, finalSummary] at this
  rw [if_neg (by simpa using hne), foldl_totals] at this
  simp only [List.length_cons, List.length_nil, Nat.zero_add, Nat.one_mul, List.flatten_cons, List.flatten_nil, List.append_nil] at this
  have e : reduce [totals evs] = totals evs := by simpa using reduce_totals [evs]
  rw [e] at this
  injection this with this
  exact this.symm

/-- **C148.**  Every number of the summary of a run in double arithmetic, for every number of ranks and whatever the order in which the
totals of the ranks are added, is the average it names over all events (or over all particles of a kind), up to a relative error of
`2^-52` for every event, particle and rank: for a million events with forty particles each that is
less than `10^-8`. -/
theorem C148_summary (h : Double fl) (ranks : List (List (Content ℝ))) (n : Nat) (hne : ranks ≠ []) (hn : 0 < n) (hlen : ∀ r ∈ ranks, r.length = n)
    (he : ∀ r ∈ ranks, ∀ e ∈ r, Regular e) (T : Nat) (hT : T = (ranks.flatten.map size).sum + ranks.length + 3) (hb : T ≤ 2 ^ 52) (s : Sums ℝ)
    (hs : FpRun.Reduced fl (fun r : List (Content ℝ) => FpRun.rankSums fl (r.map Content.view)) ranks s) :
    List.Forall₂ (fun x y : ℝ => |x - y| ≤ y * (T / 2 ^ 52)) (numbersOf (FpRun.summary fl s ((ranks.length * n : Nat) : Int)))
      (numbersOf (specSummary ranks.flatten)) := by
  have htot : ranks.flatten.length = ranks.length * n := by
    rw [List.length_flatten, List.map_congr_left hlen]; simp
  have hpos : 0 < ranks.flatten.length := by
    rw [htot]; exact Nat.mul_pos (List.length_pos_iff.2 hne) hn
  rw [spec_of_totals _ (List.length_pos_iff.1 hpos), ← htot]
  obtain ⟨k, hk⟩ : ∃ k, T = k + 1 := ⟨_, by omega⟩
  have c := reduced_close h ranks he hs (T := k) (by omega)
  have hev : ∀ e ∈ ranks.flatten, Regular e := by
    intro e m; obtain ⟨r, hr, m⟩ := List.mem_flatten.1 m; exact he r hr e m
  have szI : ∀ g : Content ℝ → Nat, (∀ e, g e ≤ size e) → (ranks.flatten.map fun e => (g e : Int)).sum ≤ (T : Int) ∧
      0 ≤ (ranks.flatten.map fun e => (g e : Int)).sum := by
    intro g hg
    have e1 : (ranks.flatten.map fun e => (g e : Int)).sum = (((ranks.flatten.map g).sum : Nat) : Int) := by
      induction ranks.flatten with
      | nil => simp
      | cons a l ih => simp [ih]
    have e2 : (ranks.flatten.map g).sum ≤ (ranks.flatten.map size).sum := List.sum_le_sum fun e _ => hg e
    rw [e1]; constructor <;> omega
  have evn : ranks.flatten.length ≤ T := by
    have : (ranks.flatten.map fun _ => 1).sum ≤ (ranks.flatten.map size).sum := List.sum_le_sum fun e _ => by unfold size; omega
    simp only [List.map_const', List.sum_replicate, smul_eq_mul, mul_one] at this
    omega
  have fin : ∀ {e : Nat} {x y d : ℝ}, Good e k x y → e ≤ 301 → 1 ≤ d → d ≤ 2 ^ 52 → |fl (x / d) - y / d| ≤ y / d * (T / 2 ^ 52) := by
    intro e x y d g h1 h2 h3
    have := ((g.div h2 h3).rounded h (by omega)).error (by omega)
    rwa [← hk] at this
  have d1 : (1 : ℝ) ≤ ((ranks.flatten.length : Int) : ℝ) := by exact_mod_cast hpos
  have d2 : ((ranks.flatten.length : Int) : ℝ) ≤ 2 ^ 52 := by exact_mod_cast evn.trans hb
  have dN : ∀ N : Int, N ≤ (T : Int) → (1 : ℝ) ≤ atLeastOne N ∧ (atLeastOne N : ℝ) ≤ 2 ^ 52 := by
    intro N hN
    unfold atLeastOne
    constructor
    · exact_mod_cast le_max_right N 1
    · have : max N 1 ≤ (2 ^ 52 : Int) := by
        have : (T : Int) ≤ 2 ^ 52 := by exact_mod_cast hb
        omega
      exact_mod_cast this
  have per : ∀ {e : Nat} {x y : ℝ} {N : Int}, Good e k x y → e ≤ 301 → N ≤ (T : Int) →
      |fl (x / atLeastOne N) - y / atLeastOne N| ≤ y / atLeastOne N * (T / 2 ^ 52) :=
    fun g he hN => fin g he (dN _ hN).1 (dN _ hN).2
  have int : ∀ N : Int, 0 ≤ N → |fl ((N : ℝ) / ((ranks.flatten.length : Int) : ℝ)) - (N : ℝ) / ((ranks.flatten.length : Int) : ℝ)| ≤
      (N : ℝ) / ((ranks.flatten.length : Int) : ℝ) * (T / 2 ^ 52) := by
    intro N hN
    refine fin (e := 0) ((good_refl ?_).mono le_rfl (Nat.zero_le k)) (by norm_num) d1 d2
    rcases hN.eq_or_lt with r | r
    · left; exact_mod_cast r.symm
    · right
      have : (1 : ℝ) ≤ N := by exact_mod_cast r
      simpa using this
  have whole : ∀ f : Content ℝ → Int, (∀ e ∈ ranks.flatten, 0 ≤ f e) → 0 ≤ (ranks.flatten.map f).sum := by
    intro f hf
    exact List.sum_nonneg fun x hx => by obtain ⟨e, m, rfl⟩ := List.mem_map.1 hx; exact hf e m
  have nl := szI (fun e => e.lightNeutrons.length) fun e => by unfold size; omega
  have nh := szI (fun e => e.heavyNeutrons.length) fun e => by unfold size; omega
  have np := szI (fun e => e.preNeutrons.length) fun e => by unfold size; omega
  have gl := szI (fun e => e.lightPhotons.length) fun e => by unfold size; omega
  have gh := szI (fun e => e.heavyPhotons.length) fun e => by unfold size; omega
  have nt := szI (fun e => e.lightNeutrons.length + e.heavyNeutrons.length + e.preNeutrons.length) fun e => by unfold size; omega
  have gt := szI (fun e => e.lightPhotons.length + e.heavyPhotons.length) fun e => by unfold size; omega
  have ent : (totals ranks.flatten).nuTot = (ranks.flatten.map fun e => ((e.lightNeutrons.length + e.heavyNeutrons.length + e.preNeutrons.length : Nat) : Int)).sum := by
    simp only [totals, Nat.cast_add, List.sum_map_add]
  have egt : (totals ranks.flatten).nugTot = (ranks.flatten.map fun e => ((e.lightPhotons.length + e.heavyPhotons.length : Nat) : Int)).sum := by
    simp only [totals, Nat.cast_add, List.sum_map_add]
  rw [← ent] at nt
  rw [← egt] at gt
  change (totals ranks.flatten).nuL ≤ _ ∧ 0 ≤ (totals ranks.flatten).nuL at nl
  change (totals ranks.flatten).nuH ≤ _ ∧ 0 ≤ (totals ranks.flatten).nuH at nh
  change (totals ranks.flatten).nuPre ≤ _ ∧ 0 ≤ (totals ranks.flatten).nuPre at np
  change (totals ranks.flatten).nugL ≤ _ ∧ 0 ≤ (totals ranks.flatten).nugL at gl
  change (totals ranks.flatten).nugH ≤ _ ∧ 0 ≤ (totals ranks.flatten).nugH at gh
  simp only [numbersOf, FpRun.summary, Driver.summary, List.forall₂_cons, List.forall₂_nil_left_iff, and_true]
  rw [c.zL, c.aL, c.zH, c.aH, c.nuL, c.nuH, c.nuPre, c.nuTot, c.nugL, c.nugH, c.nugTot]
  refine ⟨int _ (whole _ fun e m => (hev e m).whole.2.1), int _ (whole _ fun e m => (hev e m).whole.1), int _ (whole _ fun e m => (hev e m).whole.2.2.2),
    int _ (whole _ fun e m => (hev e m).whole.2.2.1), fin c.keL (by norm_num) d1 d2, fin c.keH (by norm_num) d1 d2, fin c.tke (by norm_num) d1 d2,
    fin c.xeL (by norm_num) d1 d2, fin c.xeH (by norm_num) d1 d2, fin c.txe (by norm_num) d1 d2,
    fin c.jL (by norm_num) d1 d2, fin c.jH (by norm_num) d1 d2, fin c.j (by norm_num) d1 d2,
    int _ nl.2, int _ nh.2, int _ np.2, int _ nt.2, per c.ecmL (by norm_num) nl.1, per c.ecmH (by norm_num) nh.1, per c.enPre (by norm_num) np.1,
    per c.ecm (by norm_num) nt.1, per c.elabL (by norm_num) nl.1, per c.elabH (by norm_num) nh.1, per c.enPre (by norm_num) np.1,
    per c.eLab (by norm_num) nt.1, int _ gl.2, int _ gh.2, int _ gt.2, per c.egL (by norm_num) gl.1, per c.egH (by norm_num) gh.1,
    per c.eg (by norm_num) gt.1⟩

/-- **C148** (ranks).  Two runs of the same events on different numbers of ranks, with the totals added in any order, show the same
averages up to rounding. -/
theorem C148_split (h : Double fl) (ranks ranks' : List (List (Content ℝ))) (n n' : Nat) (hne : ranks ≠ []) (hne' : ranks' ≠ []) (hn : 0 < n)
    (hn' : 0 < n') (hlen : ∀ r ∈ ranks, r.length = n) (hlen' : ∀ r ∈ ranks', r.length = n') (same : ranks.flatten = ranks'.flatten)
    (he : ∀ e ∈ ranks.flatten, Regular e) (hb : (ranks.flatten.map size).sum + ranks.length + ranks'.length + 3 ≤ 2 ^ 52) (s s' : Sums ℝ)
    (hs : FpRun.Reduced fl (fun r : List (Content ℝ) => FpRun.rankSums fl (r.map Content.view)) ranks s)
    (hs' : FpRun.Reduced fl (fun r : List (Content ℝ) => FpRun.rankSums fl (r.map Content.view)) ranks' s') (i : Nat) (x x' y : ℝ)
    (hx : (numbersOf (FpRun.summary fl s ((ranks.length * n : Nat) : Int)))[i]? = some x)
    (hx' : (numbersOf (FpRun.summary fl s' ((ranks'.length * n' : Nat) : Int)))[i]? = some x')
    (hy : (numbersOf (specSummary ranks.flatten))[i]? = some y) :
    |x - x'| ≤ y * ((2 * (ranks.flatten.map size).sum + ranks.length + ranks'.length + 6 : Nat) / 2 ^ 52) := by
  have a := C148_summary h ranks n hne hn hlen (fun r hr e m => he e (List.mem_flatten.2 ⟨r, hr, m⟩)) _ rfl (by omega) s hs
  have b := C148_summary h ranks' n' hne' hn' hlen' (fun r hr e m => he e (same ▸ List.mem_flatten.2 ⟨r, hr, m⟩)) _ rfl (by rw [← same]; omega) s' hs'
  rw [← same] at b
  have get : ∀ {l l' : List ℝ} {c : ℝ}, List.Forall₂ (fun x y : ℝ => |x - y| ≤ y * c) l l' → ∀ {x y : ℝ}, l[i]? = some x → l'[i]? = some y →
      |x - y| ≤ y * c := by
    intro l l' c f x y h1 h2
    obtain ⟨i1, rfl⟩ := List.getElem?_eq_some_iff.1 h1
    obtain ⟨i2, rfl⟩ := List.getElem?_eq_some_iff.1 h2
    exact List.forall₂_iff_get.1 f |>.2 i i1 i2
  have u := get a hx hy
  have v := get b hx' hy
  have w : x - x' = (x - y) - (x' - y) := by ring
  rw [w]
  refine (abs_sub _ _).trans ((add_le_add u v).trans (le_of_eq ?_))
  push_cast
  ring

/-- **C148** (notebook).  The mean of a column of numbers that are not negative, as numpy forms it in some order and grouping. -/
theorem C148_mean (h : Double fl) (xs : List ℝ) (hx : ∀ x ∈ xs, Sizeable 300 x) (hb : xs.length < 2 ^ 52) (s : ℝ) (hs : FpRun.Added fl id xs s) :
    |fl (s / xs.length) - xs.sum / xs.length| ≤ xs.sum / xs.length * ((xs.length + 1 : Nat) / 2 ^ 52) := by
  have g := good_added h (e := 300) (k := 0) (by norm_num) hs (g := id) fun r hr => good_refl (hx r hr)
  rw [List.map_id, Nat.zero_add] at g
  have pos : 1 ≤ xs.length := by
    rcases xs with _ | ⟨x, xs⟩
    · exfalso
      have : ∀ {rs : List ℝ} {s : ℝ}, FpRun.Added fl id rs s → rs ≠ [] := by
        intro rs s a
        induction a with
        | one r => simp
        | add _ _ p i1 i2 => intro h; rw [h] at p; exact i1 (List.append_eq_nil_iff.1 p.symm.eq_nil).1
      exact this hs rfl
    · simp
  have p1 : (1 : ℝ) ≤ xs.length := by exact_mod_cast pos
  have p2 : (xs.length : ℝ) ≤ 2 ^ 52 := by exact_mod_cast hb.le
  exact ((g.div p1 p2).rounded h (by norm_num)).error (by omega)

/-! ## Examples -/

/-- Any numbers of ranks can be added. -/
theorem added_exists {ι : Type} (f : ι → ℝ) : ∀ rs : List ι, rs ≠ [] → ∃ s, FpRun.Added fl f rs s
  | [], h => absurd rfl h
  | [r], _ => ⟨_, .one r⟩
  | r :: q :: rs, _ => by
    obtain ⟨s, hs⟩ := added_exists f (q :: rs) (by simp)
    exact ⟨_, .add (.one r) hs (List.Perm.refl _)⟩

/-- So every run has a summary. -/
theorem reduced_exists {ι : Type} (part : ι → Sums ℝ) (ranks : List ι) (h : ranks ≠ []) : ∃ s, FpRun.Reduced fl part ranks s := by
  have e := fun f : ι → ℝ => added_exists (fl := fl) f ranks h
  refine ⟨⟨_, _, _, _, _, _, _, _, _, _, _, (e fun r => (part r).keL).choose, (e fun r => (part r).keH).choose, (e fun r => (part r).tke).choose,
    (e fun r => (part r).xeL).choose, (e fun r => (part r).xeH).choose, (e fun r => (part r).txe).choose, (e fun r => (part r).jL).choose,
    (e fun r => (part r).jH).choose, (e fun r => (part r).j).choose, (e fun r => (part r).ecmL).choose, (e fun r => (part r).ecmH).choose,
    (e fun r => (part r).elabL).choose, (e fun r => (part r).elabH).choose, (e fun r => (part r).enPre).choose, (e fun r => (part r).ecm).choose,
    (e fun r => (part r).eLab).choose, (e fun r => (part r).egL).choose, (e fun r => (part r).egH).choose, (e fun r => (part r).eg).choose⟩,
    rfl, rfl, rfl, rfl, rfl, rfl, rfl, rfl, rfl, rfl, rfl, (e _).choose_spec, (e _).choose_spec, (e _).choose_spec, (e _).choose_spec,
    (e _).choose_spec, (e _).choose_spec, (e _).choose_spec, (e _).choose_spec, (e _).choose_spec, (e _).choose_spec, (e _).choose_spec,
    (e _).choose_spec, (e _).choose_spec, (e _).choose_spec, (e _).choose_spec, (e _).choose_spec, (e _).choose_spec, (e _).choose_spec,
    (e _).choose_spec⟩

/-- An event with two neutrons and a photon. -/
noncomputable def demoEvent (k : ℝ) : Content ℝ := ⟨100, 40, 152, 58, 100 + k, 70, 20, 15, 7, 0, [(1, 2)], [(3, 4)], [], [1 / 2], []⟩

theorem demoEvent_regular {k : ℝ} (h : 0 ≤ k) : Regular (demoEvent k) := by
  have s : ∀ x : ℝ, 1 / 2 ≤ x → Sizeable 300 x := fun x hx =>
    .inr ((one_div_le_one_div_of_le (by norm_num) (le_self_pow₀ (by norm_num) (by norm_num) : (2 : ℝ) ≤ 2 ^ 300)).trans hx)
  refine ⟨by simp [demoEvent], ?_, ?_, ?_⟩
  · intro x hx
    simp only [demoEvent, List.mem_cons, List.not_mem_nil, or_false] at hx
    rcases hx with rfl | rfl | rfl | rfl | rfl | rfl
    · exact s _ (by linarith)
    · exact s _ (by norm_num)
    · exact s _ (by norm_num)
    · exact s _ (by norm_num)
    · exact s _ (by norm_num)
    · exact .inl rfl
  · intro x hx
    simp only [demoEvent, List.cons_append, List.nil_append, List.mem_cons, List.not_mem_nil, or_false] at hx
    rcases hx with rfl | rfl
    · exact ⟨s _ (by norm_num), s _ (by norm_num)⟩
    · exact ⟨s _ (by norm_num), s _ (by norm_num)⟩
  · intro x hx
    simp only [demoEvent, List.nil_append, List.append_nil, List.mem_cons, List.not_mem_nil, or_false] at hx
    rw [hx]; exact s _ le_rfl

/-- Two ranks with one event each: the averages for any order of the sum. -/
example (h : Double fl) : ∃ s, FpRun.Reduced fl (fun r : List (Content ℝ) => FpRun.rankSums fl (r.map Content.view)) [[demoEvent 0], [demoEvent 2]] s ∧
    |(FpRun.summary fl s 2).tke - 171| ≤ 171 * (13 / 2 ^ 52) := by
  obtain ⟨s, hs⟩ := reduced_exists (fl := fl) (fun r : List (Content ℝ) => FpRun.rankSums fl (r.map Content.view)) [[demoEvent 0], [demoEvent 2]] (by simp)
  refine ⟨s, hs, ?_⟩
  have := C148_summary h [[demoEvent 0], [demoEvent 2]] 1 (by simp) one_pos (by simp) (by
    intro r hr e m
    simp only [List.mem_cons, List.not_mem_nil, or_false] at hr
    rcases hr with rfl | rfl <;> (rw [List.mem_singleton] at m; rw [m])
    · exact demoEvent_regular le_rfl
    · exact demoEvent_regular (by norm_num)) 13 (by simp [size, demoEvent]) (by norm_num) s hs
  simp only [numbersOf, List.forall₂_cons] at this
  have key := this.2.2.2.2.2.2.1
  have e : (specSummary [[demoEvent 0], [demoEvent 2]].flatten).tke = 171 := by
    simp [specSummary, mean, demoEvent]; norm_num
  rw [e] at key
  simpa using key

end CGMF.Props

import Verif.Proofs.PreEnergy
import Verif.Proofs.Accept
import Mathlib.Data.Rat.Floor
import Mathlib.Algebra.Order.Archimedean.Real.Basic

/-!
# Multi-chance fission and pre-fission neutrons: C50, C51
-/

set_option linter.unusedSectionVars false

namespace CGMF.Props

open CGMF.Pre CGMF.Spec

variable {K : Type} [Field K] [LinearOrder K] [IsStrictOrderedRing K] [FloorRing K]

/-! ## C50 -/

theorem interpOne_between (c : Chance K) (e : K) (hc : BlockOK c) (i j : Nat) (e0 e1 : K)
    (h0 : c.energies[i]? = some e0) (h1 : c.energies[i + 1]? = some e1) (hl : e0 < e) (hr : e ≤ e1) (hj : j ≤ c.nn) :
    ∃ v, interpOne c e ((i + 1 : Nat) : Int) (j : Int) = .ok v ∧ Interpolated c e j v ∧ 0 ≤ v := by
  have hi1 : i + 1 < c.pf.length := by
    rw [hc.rows]; exact (List.getElem?_eq_some_iff.mp h1).1
  have g0 : c.pf[i]? = some c.pf[i] := List.getElem?_eq_getElem (by omega)
  have g1 : c.pf[i + 1]? = some c.pf[i + 1] := List.getElem?_eq_getElem hi1
  have l0 := hc.cols c.pf[i] (List.getElem_mem _)
  have l1 := hc.cols c.pf[i + 1] (List.getElem_mem _)
  have k0 : (c.pf[i])[j]? = some ((c.pf[i])[j]'(by omega)) := List.getElem?_eq_getElem _
  have k1 : (c.pf[i + 1])[j]? = some ((c.pf[i + 1])[j]'(by omega)) := List.getElem?_eq_getElem _
  have n0 := hc.nonneg c.pf[i] (List.getElem_mem _) ((c.pf[i])[j]'(by omega)) (List.getElem_mem _)
  have n1 := hc.nonneg c.pf[i + 1] (List.getElem_mem _) ((c.pf[i + 1])[j]'(by omega)) (List.getElem_mem _)
  have hlt : e0 < e1 := hl.trans_le hr
  have hd : 0 < e1 - e0 := sub_pos.mpr hlt
  refine ⟨((c.pf[i])[j]'(by omega) * (e1 - e) + (c.pf[i + 1])[j]'(by omega) * (e - e0)) / (e1 - e0), ?_,
    ⟨i, e0, e1, _, _, _, _, h0, h1, hl, hr, g0, g1, k0, k1, ?_⟩, ?_⟩
  · unfold interpOne readAt2
    have q1 : readAt c.pf ((i + 1 : Nat) : Int) = .ok c.pf[i + 1] := by
      rw [readAt_ok_iff]; exact ⟨by omega, g1⟩
    have q0 : readAt c.pf (((i + 1 : Nat) : Int) - 1) = .ok c.pf[i] := by
      rw [readAt_ok_iff]; exact ⟨by omega, by rw [show (((i + 1 : Nat) : Int) - 1).toNat = i by omega]; exact g0⟩
    have q2 : readAt (c.pf[i + 1]) (j : Int) = .ok ((c.pf[i + 1])[j]'(by omega)) := by
      rw [readAt_ok_iff]; exact ⟨by omega, k1⟩
    have q3 : readAt (c.pf[i]) (j : Int) = .ok ((c.pf[i])[j]'(by omega)) := by
      rw [readAt_ok_iff]; exact ⟨by omega, k0⟩
    have q4 : readAt c.energies ((i + 1 : Nat) : Int) = .ok e1 := by
      rw [readAt_ok_iff]; exact ⟨by omega, by simpa using h1⟩
    have q5 : readAt c.energies (((i + 1 : Nat) : Int) - 1) = .ok e0 := by
      rw [readAt_ok_iff]; exact ⟨by omega, by rw [show (((i + 1 : Nat) : Int) - 1).toNat = i by omega]; exact h0⟩
    rw [q1, q0, q4, q5]
    simp only [Res.bind]
    rw [q2, q3]
    simp only []
    rw [interp_value hlt]
  · field_simp
  · apply div_nonneg _ hd.le
    have a := sub_nonneg.mpr hr
    have b := sub_nonneg.mpr hl.le
    exact add_nonneg (mul_nonneg n0 a) (mul_nonneg n1 b)

/-- **C50 (partial: above the first tabulated energy).** For every incident energy above the first and up to
the last tabulated energy, the unnormalised probabilities of `0..nn` neutrons are the linear
interpolations of the table, hence non-negative. -/
theorem C50_interpolated_partial (c : Chance K) (e : K) (hc : BlockOK c) (a b : K) (ha : c.energies.head? = some a)
    (hb : c.energies.getLast? = some b) (h1 : a < e) (h2 : e ≤ b) :
    ∃ ps, interp c e = .ok ps ∧ ps.length = c.nn + 1 ∧
      ∀ (j : Nat) (v : K), ps[j]? = some v → Interpolated c e j v ∧ 0 ≤ v := by
  have hne : c.energies ≠ [] := by intro h; simp [h] at ha
  have hlen : 0 < c.energies.length := List.length_pos_iff.mpr hne
  have r0 : readAt c.energies 0 = .ok a := by
    rw [readAt_ok_iff]; refine ⟨le_rfl, ?_⟩
    simpa [List.head?_eq_getElem?] using ha
  have r1 : readAt c.energies ((c.energies.length : Int) - 1) = .ok b := by
    rw [readAt_ok_iff]
    refine ⟨by omega, ?_⟩
    rw [show ((c.energies.length : Int) - 1).toNat = c.energies.length - 1 by omega, ← List.getLast?_eq_getElem?]
    exact hb
  obtain ⟨i, hi⟩ := firstAtLeast_exists (e := e) (List.mem_of_getLast? hb) h2
  obtain ⟨hil, hle, hlt⟩ := firstAtLeast_some hi
  have hi0 : i ≠ 0 := by
    rintro rfl
    have : c.energies[0] = a := by
      rw [List.head?_eq_getElem?, List.getElem?_eq_getElem hlen] at ha
      exact Option.some.inj ha
    rw [this] at hle
    exact absurd h1 (not_lt.mpr hle)
  obtain ⟨i, rfl⟩ := Nat.exists_eq_succ_of_ne_zero hi0
  have e0 : c.energies[i]? = some c.energies[i] := List.getElem?_eq_getElem (by omega)
  have e1 : c.energies[i + 1]? = some c.energies[i + 1] := List.getElem?_eq_getElem hil
  have key : ∀ j, j ≤ c.nn → ∃ v, interpOne c e ((i + 1 : Nat) : Int) (j : Int) = .ok v ∧ Interpolated c e j v ∧ 0 ≤ v :=
    fun j hj => interpOne_between c e hc i j _ _ e0 e1 (hlt i (by omega) (by omega)) hle hj
  obtain ⟨ps, hps⟩ := interpFrom_total c e ((i + 1 : Nat) : Int) (c.nn + 1) 0 (by
    intro t ht
    obtain ⟨v, hv, _⟩ := key t (by omega)
    exact ⟨v, by simpa using hv⟩)
  obtain ⟨hpl, hpv⟩ := interpFrom_spec c e ((i + 1 : Nat) : Int) (c.nn + 1) 0 ps hps
  refine ⟨ps, ?_, hpl, ?_⟩
  · unfold interp
    rw [r0, r1]
    simp only [Res.bind]
    rw [if_neg (by rw [not_or]; exact ⟨not_lt.mpr h1.le, not_lt.mpr h2⟩), hi]
    exact hps
  · intro j v hv
    have hjl : j < c.nn + 1 := by rw [← hpl]; exact (List.getElem?_eq_some_iff.mp hv).1
    obtain ⟨v', hv1, hv2⟩ := key j (by omega)
    have := hpv j v hv
    rw [Nat.zero_add, hv1] at this
    cases this
    exact hv2

theorem sum_le_zero (l : List K) (h : ∀ q ∈ l, q ≤ 0) : l.sum ≤ 0 := by
  induction l with
  | nil => simp
  | cons a l ih =>
    have := h a (by simp)
    have := ih (fun q hq => h q (by simp [hq]))
    simp only [List.sum_cons]
    linarith

/-- A block with two energies and up to one neutron. -/
def exBlock : Chance ℚ := ⟨1, [5, 6], [0, 10], [[1, 0], [1 / 2, 1 / 2]]⟩

example : BlockOK exBlock := ⟨rfl, by decide +kernel, by decide +kernel⟩
example : interp exBlock 4 = .ok [4 / 5, 1 / 5] := by decide +kernel
example : interp exBlock 11 = .exit := by decide +kernel

/-- **C50 (partial: probability of no neutron positive).** The normalised probabilities of `0..nemit` neutrons
are non-negative, add up to one, are proportional to the interpolated table, and the largest of them is the
one used by the sampler. -/
theorem C50_distribution_partial (c : Chance K) (e : K) (hc : BlockOK c) (a b : K) (ha : c.energies.head? = some a)
    (hb : c.energies.getLast? = some b) (h1 : a < e) (h2 : e ≤ b) (nemit : Int) (hne : 0 ≤ nemit)
    (hpos : ∀ v, Interpolated c e 0 v → 0 < v) :
    ∃ m s, multi c e nemit = .ok m ∧ 0 ≤ m.nemit ∧ m.nemit ≤ c.nn ∧ m.prob.length = c.nn + 1 ∧ 0 < s ∧
      (∀ (j : Nat) (p : K), (j : Int) ≤ m.nemit → m.prob[j]? = some p →
        0 ≤ p ∧ p ≤ m.pmax ∧ Interpolated c e j (p * s)) ∧
      (m.prob.take (m.nemit + 1).toNat).sum = 1 ∧ m.pmax ∈ m.prob.take (m.nemit + 1).toNat := by
  obtain ⟨ps, hps, hlen, hv⟩ := C50_interpolated_partial c e hc a b ha hb h1 h2
  have hp0 : ps[0]? = some (ps[0]'(by omega)) := List.getElem?_eq_getElem (by omega)
  have hpos0 : (0 : K) < ps[0]'(by omega) := hpos _ (hv 0 _ hp0).1
  have hlim : 0 ≤ limit ps c.nn nemit ∧ limit ps c.nn nemit ≤ c.nn := by
    rcases limit_spec ps c.nn nemit with ⟨h, _⟩ | ⟨j, hj, h, hj0, _⟩
    · omega
    · have : j ≠ 0 := by
        rintro rfl
        rw [List.getD_eq_getElem?_getD, hp0] at hj0
        simp at hj0
        exact absurd hpos0 (not_lt.mpr hj0)
      omega
  have hnonneg : ∀ q ∈ ps, 0 ≤ q := by
    intro q hq
    obtain ⟨j, hj⟩ := List.mem_iff_getElem?.mp hq
    exact (hv j q hj).2
  generalize hL : limit ps c.nn nemit = L at hlim
  have hm : multi c e nemit = .ok ⟨L, normTo (L + 1).toNat ps, maxOf ((normTo (L + 1).toNat ps).take (L + 1).toNat)⟩ := by
    unfold multi; rw [hps]; simp only [Res.bind]; rw [hL]
  generalize hT : (L + 1).toNat = T at hm
  have hT1 : 1 ≤ T := by omega
  have hTl : T ≤ ps.length := by omega
  have hsum : 0 < (ps.take T).sum := by
    obtain ⟨x, xs, rfl⟩ : ∃ x xs, ps = x :: xs := by
      cases ps with
      | nil => simp at hlen
      | cons x xs => exact ⟨x, xs, rfl⟩
    obtain ⟨T, rfl⟩ := Nat.exists_eq_succ_of_ne_zero (by omega : T ≠ 0)
    simp only [List.take_succ_cons, List.sum_cons]
    simp at hpos0
    have : 0 ≤ (xs.take T).sum := List.sum_nonneg (by
      intro q hq; exact hnonneg q (List.mem_cons_of_mem _ (List.mem_of_mem_take hq)))
    linarith
  refine ⟨_, (ps.take T).sum, hm, hlim.1, hlim.2, ?_, hsum, ?_, ?_, ?_⟩
  · simp only [normTo]
    simp [hlen]
    omega
  · intro j p hj hp
    simp only at hj hp ⊢
    have hjT : j < T := by omega
    have hp' : ((normTo T ps).take T)[j]? = some p := by rw [List.getElem?_take_of_lt hjT]; exact hp
    have hmem := List.mem_of_getElem? hp'
    rw [normTo_take] at hp'
    rw [List.getElem?_map, List.getElem?_take_of_lt hjT] at hp'
    obtain ⟨q, hq, rfl⟩ := Option.map_eq_some_iff.mp hp'
    obtain ⟨g1, g2⟩ := hv j q hq
    refine ⟨div_nonneg g2 hsum.le, maxOf_le _ _ hmem, ?_⟩
    rw [div_mul_cancel₀ _ hsum.ne']
    exact g1
  · simp only [hT]
    rw [normTo_take, sum_norm _ hsum.ne']
  · simp only [hT]
    rcases maxOf_mem ((normTo T ps).take T) with h0 | h0
    · exfalso
      have : ∀ q ∈ (normTo T ps).take T, q ≤ 0 := fun q hq => (maxOf_le _ q hq).trans h0.le
      have h1 : ((normTo T ps).take T).sum = 1 := by rw [normTo_take, sum_norm _ hsum.ne']
      have h2 : ((normTo T ps).take T).sum ≤ 0 := sum_le_zero _ this
      linarith
    · exact h0

example : multi exBlock 4 1 = .ok ⟨1, [4 / 5, 1 / 5], 4 / 5⟩ := by decide +kernel

/-- **C50, refuted at the lowest tabulated energy:** the interpolation then reads the entries before the
first ones, which is undefined. -/
theorem C50_lowest_energy_undefined (c : Chance K) (hc : BlockOK c) (e : K) (es : List K)
    (he : c.energies = e :: es) (hsort : ∀ x ∈ es, e ≤ x) (nemit : Int) : multi c e nemit = .ub := by
  have hi : firstAtLeast e c.energies = some 0 := by
    rw [he]; simp [firstAtLeast, List.findIdx?_cons]
  have hl : 0 < c.pf.length := by rw [hc.rows, he]; simp
  have r0 : readAt c.energies 0 = .ok e := by rw [readAt_ok_iff, he]; simp
  have r1 : ∃ x, readAt c.energies ((c.energies.length : Int) - 1) = .ok x ∧ e ≤ x := by
    have hlen : 0 < c.energies.length := by rw [he]; simp
    refine ⟨c.energies[c.energies.length - 1], ?_, ?_⟩
    · rw [readAt_ok_iff]
      refine ⟨by omega, ?_⟩
      rw [show ((c.energies.length : Int) - 1).toNat = c.energies.length - 1 by omega]
      exact List.getElem?_eq_getElem _
    · have : c.energies[c.energies.length - 1] ∈ e :: es := by rw [← he]; exact List.getElem_mem _
      rcases List.mem_cons.mp this with h | h
      · exact h.ge
      · exact hsort _ h
  obtain ⟨x, r1, hx⟩ := r1
  unfold multi interp
  rw [r0, r1]
  simp only [Res.bind]
  rw [if_neg (by rw [not_or]; exact ⟨lt_irrefl _, not_lt.mpr hx⟩), hi]
  simp only [interpFrom, interpOne, readAt2]
  have hrow : readAt c.pf ((0 : Nat) : Int) = .ok c.pf[0] := by
    rw [readAt_ok_iff]; exact ⟨by omega, by simp⟩
  have hcol := hc.cols c.pf[0] (List.getElem_mem _)
  have hent : readAt c.pf[0] ((0 : Nat) : Int) = .ok (c.pf[0][0]'(by omega)) := by
    rw [readAt_ok_iff]; exact ⟨by omega, by simp⟩
  rw [hrow]
  simp only [Res.bind]
  rw [hent]
  simp only []
  rw [readAt_neg (by omega)]

example : multi exBlock 0 1 = .ub := by decide +kernel

/-- **C50, finding:** the energetic limit on the number of neutrons is not respected. When the probabilities
up to the limit are all positive, the limit is raised to the number of neutrons of the table. -/
theorem C50_limit_raised (c : Chance K) (e : K) (nemit : Int) (ps : List K) (hi : interp c e = .ok ps)
    (hp : ∀ j : Nat, (j : Int) ≤ min nemit c.nn → 0 < ps.getD j 0) :
    ∃ m, multi c e nemit = .ok m ∧ m.nemit = c.nn := by
  refine ⟨_, by unfold multi; rw [hi]; rfl, ?_⟩
  rcases limit_spec ps c.nn nemit with ⟨h, _⟩ | ⟨j, hj, _, hj0, _⟩
  · exact h
  · exact absurd (hp j hj) (not_lt.mpr hj0)

/-- No neutron can be emitted (limit 0), but the limit becomes 1. -/
example : multi exBlock 4 0 = .ok ⟨1, [4 / 5, 1 / 5], 4 / 5⟩ := by decide +kernel

/-- **C50.** The number of pre-fission neutrons is always between zero and the limit, never read outside the
table, and accepted only by a random height below its probability. -/
theorem C50_number (m : Multi K) (h0 : 0 ≤ m.nemit) (hlen : m.nemit < m.prob.length) (s : List K) (hs : Unit01 s) :
    number m s ≠ .ub ∧ ∀ n s', number m s = .ok (n, s') → 0 ≤ n ∧ n ≤ m.nemit ∧
      ∃ (pre : List K) (r1 r2 p : K), s = pre ++ r1 :: r2 :: s' ∧ m.prob[n.toNat]? = some p ∧ m.pmax * r2 ≤ p ∧
        (n : K) ≤ r1 * (m.nemit + 1) ∧ r1 * (m.nemit + 1) < n + 1 := by
  refine ⟨(number_safe m h0 hlen s.length s le_rfl hs).1, ?_⟩
  intro n s' h
  obtain ⟨pre, r1, r2, p, e1, e2, e3, e4⟩ := number_ok m s.length s s' n le_rfl h
  have hr := hs r1 (by rw [e1]; simp)
  obtain ⟨a, b⟩ := floor_unit hr.1 hr.2 (n := m.nemit + 1) (by omega)
  rw [← e2] at a b
  have hfl : ⌊r1 * ((m.nemit + 1 : Int) : K)⌋ = n := e2.symm
  rw [Int.floor_eq_iff] at hfl
  push_cast at hfl
  exact ⟨a, by omega, pre, r1, r2, p, e1, (readAt_ok_iff.mp e3).2, e4, hfl⟩

example : number (⟨1, [4 / 5, 1 / 5], 4 / 5⟩ : Multi ℚ) [3 / 4, 1 / 2, 3 / 4, 1 / 8, 9] = .ok (1, [9]) := by
  decide +kernel

open MeasureTheory in
/-- **C50.** The probability that one attempt of the sampler, with two independent uniform random numbers,
returns `n` is the probability of `n` neutrons divided by `(nemit+1)*pmax`: proportional to the entry. -/
theorem C50_probability (m : Multi ℝ) (h0 : 0 ≤ m.nemit) (n : Int) (hn0 : 0 ≤ n) (hn : n ≤ m.nemit) (p : ℝ)
    (hp : m.prob[n.toNat]? = some p) (hp0 : 0 ≤ p) (hpm : p ≤ m.pmax) (hm : 0 < m.pmax) :
    volume {x : ℝ × ℝ | (0 ≤ x.1 ∧ x.1 < 1) ∧ (0 ≤ x.2 ∧ x.2 < 1) ∧ number m [x.1, x.2] = .ok (n, [])}
      = ENNReal.ofReal (p / ((m.nemit + 1) * m.pmax)) := by
  obtain ⟨N, hN⟩ := Int.eq_ofNat_of_zero_le (show 0 ≤ m.nemit + 1 by omega)
  have hNr : (m.nemit : ℝ) + 1 = N := by exact_mod_cast hN
  have : {x : ℝ × ℝ | (0 ≤ x.1 ∧ x.1 < 1) ∧ (0 ≤ x.2 ∧ x.2 < 1) ∧ number m [x.1, x.2] = .ok (n, [])}
      = Accept.region 0 n N m.pmax p := by
    ext ⟨a, b⟩
    simp only [Accept.region, Set.mem_ofPred_eq, Int.cast_zero, add_zero, zero_add]
    refine and_congr_right fun _ => and_congr_right fun _ => ?_
    have hcast : ((m.nemit + 1 : Int) : ℝ) = (N : ℝ) := by push_cast; exact hNr
    rw [number, hcast]
    constructor
    · intro h
      generalize hc : readAt m.prob ⌊a * (N : ℝ)⌋ = o at h
      rcases o with q | _ | _
      · simp only [] at h
        split at h
        · simp [number] at h
        · rename_i hq
          simp only [Out.ok.injEq, Prod.mk.injEq, and_true] at h
          rw [h, readAt_ok_iff, hp] at hc
          cases hc.2
          exact ⟨h, by rw [mul_comm]; exact not_lt.mp hq⟩
      · simp at h
      · simp at h
    · rintro ⟨h1, h2⟩
      have : readAt m.prob n = .ok p := readAt_ok_iff.mpr ⟨hn0, hp⟩
      rw [h1, this]
      simp only []
      rw [if_neg]
      rw [not_lt, mul_comm]; exact h2
  rw [this, Accept.volume_region 0 n N m.pmax p hn0 (by omega) hm hp0, min_eq_right ((div_le_one hm).mpr hpm), hNr]
  congr 1
  have : (N : ℝ) ≠ 0 := by rw [← hNr]; have : (0 : ℝ) ≤ m.nemit := by exact_mod_cast h0
                           positivity
  field_simp

example : ∃ m : Multi ℝ, 0 ≤ m.nemit ∧ m.prob[(1 : Int).toNat]? = some (1 / 5) ∧ (1 / 5 : ℝ) ≤ m.pmax ∧ 0 < m.pmax :=
  ⟨⟨1, [4 / 5, 1 / 5], 4 / 5⟩, by norm_num, rfl, by norm_num, by norm_num⟩

/-! ## C51 -/

theorem chained_sep {y : Sys K} {n N : Nat} {E : Nat → K} (h : Chained y n N E) :
    ∀ i ≤ n, E i = E 0 - (y.sep.take i).sum := by
  intro i
  induction i with
  | zero => simp
  | succ i ih =>
    intro hi
    obtain ⟨q, hq, _, hE⟩ := h.sep i (by omega)
    rw [hE, ih (by omega), List.take_add_one, hq]
    simp
    ring

/-- **C51 (partial: up to half an energy bin per neutron, and when the emission is energetically allowed).** With
`n` pre-fission neutrons and a last nucleus that reaches its barrier, the routine returns `n` neutron energies,
and the initial excitation energy minus the separation energies, minus the neutron energies, differs
from the excitation energy of the fissioning nucleus by at most half a bin per neutron. The latter is at least
the fission barrier. -/
theorem C51_energy_partial {y : Sys K} {n N : Nat} {E : Nat → K} (h : Chained y n N E) {b : K} (hb : y.w ≤ b)
    (hbar : y.barrier[n]? = some b) (htiny : 0 ≤ y.tiny ∧ y.tiny ≤ y.w / 2) (nemit : Int) (hne : nemit ≠ 0)
    (hn : 0 < n) (hopen : b ≤ E n) (s : List K) (hs : Unit01 s) :
    energies y nemit n (E 0) s ≠ .ub ∧ ∀ o ex s', energies y nemit n (E 0) s = .ok ((o, ex), s') →
      ∃ es, o = some es ∧ es.length = n ∧ b ≤ ex ∧ (∀ e ∈ es, -(y.w / 2) ≤ e) ∧
        |E 0 - (y.sep.take n).sum - es.sum - ex| ≤ n * (y.w / 2) := by
  have hN : 0 < N := by
    have := bin_lt h hb (k := 0) (by simpa using hopen)
    omega
  obtain ⟨h1, h2⟩ := energies_sound h hb hbar hN htiny nemit (E 0) s hs
  refine ⟨h1, ?_⟩
  intro o ex s' he
  rcases (h2 _ _ he).1 with ⟨_, _, hc⟩ | ⟨es, h3, h4, h5, h6, h7⟩
  · exfalso
    rcases hc with hc | hc | hc
    · exact hne hc
    · omega
    · exact absurd hopen (not_le.mpr hc)
  · refine ⟨es, h3, h4, h6, h5, ?_⟩
    rw [← chained_sep h n le_rfl]
    exact h7

/-- Two nuclei on a grid of width 1 with six bins, one neutron. -/
def exSys : Sys ℚ where
  exc := [[5, 4, 3, 2, 1, 0], [9 / 2, 7 / 2, 5 / 2, 3 / 2, 1 / 2, 0]]
  sep := [1 / 2]
  barrier := [1, 2]
  w := 1
  tiny := 1 / 10
  sp1 := [0, 1, 2, 0, 0, 0]
  sp := fun _ _ => [0, 0, 0, 0, 0, 0]

theorem exSys_chained : Chained exSys 1 6 (fun i => if i = 0 then 5 else 9 / 2) := by
  refine ⟨by decide +kernel, ?_, ?_, by norm_num [exSys], rfl, fun _ _ => rfl⟩
  · intro i hi
    have : i = 0 ∨ i = 1 := by omega
    rcases this with rfl | rfl
    · simp [exSys, List.range_succ]; norm_num
    · simp [exSys, List.range_succ]; norm_num
  · intro i hi
    have : i = 0 := by omega
    subst this
    exact ⟨1 / 2, rfl, by norm_num, by norm_num⟩

example : energies exSys 1 1 5 [3 / 4, 1 / 2, 1 / 4] = .ok ((some [9 / 4], 5 / 2), []) := by decide +kernel

/-- **C51, refuted:** the sampled energy of a pre-fission neutron can be negative: when the last nucleus
reaches less than one bin above its barrier, the only bin has energy zero and the smearing by half a bin
is not cut at zero. -/
theorem C51_negative_energy : ∃ (y : Sys ℚ) (E : Nat → ℚ) (b : ℚ) (s : List ℚ) (es : List ℚ) (ex : ℚ),
    Chained y 1 6 E ∧ y.w ≤ b ∧ y.barrier[1]? = some b ∧ b ≤ E 1 ∧ Unit01 s ∧
      energies y 1 1 (E 0) s = .ok ((some es, ex), []) ∧ ∃ e ∈ es, e < 0 := by
  refine ⟨{ exSys with barrier := [1, 4] }, fun i => if i = 0 then 5 else 9 / 2, 4, [0, 1 / 2, 9 / 10], [-(2 / 5)], 9 / 2,
    ?_, by norm_num [exSys], rfl, by norm_num, ?_, by decide +kernel, -(2 / 5), by simp, by norm_num⟩
  · exact ⟨exSys_chained.wpos, exSys_chained.bins, exSys_chained.sep, exSys_chained.cover, rfl, fun _ _ => rfl⟩
  · intro r hr
    fin_cases hr <;> norm_num

/-- **C51, refuted below the barrier:** when the last nucleus does not reach its barrier, no neutron energy
is sampled and the excitation energy is returned unchanged although `n` neutrons are still counted: the
fissioning nucleus has lost `n` neutrons but no energy at all. -/
theorem C51_below_barrier {y : Sys K} {n N : Nat} {E : Nat → K} (h : Chained y n N E) {b : K} (hb : y.w ≤ b)
    (hbar : y.barrier[n]? = some b) (hN : 0 < N) (nemit : Int) (hlow : E n < b)
    (mass : Int → Int → Res K) (en : K) (c0 : Comp K) (s : List K) :
    energies y nemit n (E 0) s = .ok ((none, E 0), s) ∧
      ∀ c, shift mass en false c0 n (E 0) = .ok c → c.ac = c0.ac - n ∧ c.einc + c.sn = E 0 := by
  have hw := h.wpos
  constructor
  · unfold energies
    by_cases hc : nemit = 0 ∨ n = 0
    · rw [if_pos hc]; rfl
    · rw [if_neg hc]
      refine (Rnd.bind_of_ok (Rnd.lift_ok.mpr ⟨exc_read h le_rfl le_rfl (by omega), rfl⟩)).trans ?_
      refine (Rnd.bind_of_ok (Rnd.lift_ok.mpr ⟨(show readAt y.barrier (n : Int) = .ok b by
        rw [readAt_ok_iff]; exact ⟨by omega, by simpa using hbar⟩), rfl⟩)).trans ?_
      rw [if_pos]
      · rfl
      · split
        · simp; exact hlow
        · linarith
  · intro c hc
    unfold shift at hc
    simp only [Bool.false_eq_true, if_false] at hc
    rw [Res.bind_iff] at hc
    obtain ⟨m, _, hc⟩ := hc
    rw [Res.bind_iff] at hc
    obtain ⟨m1, _, hc⟩ := hc
    cases hc
    exact ⟨rfl, by ring⟩

example : energies { exSys with barrier := [1, 5] } 1 1 5 [1 / 2] = .ok ((none, 5), [1 / 2]) := by decide +kernel

/-- **C51.** The fissioning nucleus: for neutron-induced fission the charge is unchanged, the mass number
is reduced by the number of pre-fission neutrons, the separation energy is that of the new nucleus and the
equivalent incident energy is the excitation energy minus it; spontaneous fission changes nothing. -/
theorem C51_nucleus (mass : Int → Int → Res K) (en : K) (sf : Bool) (c0 c : Comp K) (n : Int) (ex : K)
    (h : shift mass en sf c0 n ex = .ok c) :
    c.zc = c0.zc ∧ (sf = true → c = c0) ∧ (sf = false → c.ac = c0.ac - n ∧ c.einc + c.sn = ex ∧
      mass c.zc c.ac = .ok c.mx ∧ ∃ m1, mass c.zc (c.ac - 1) = .ok m1 ∧ c.sn = m1 + en - c.mx) := by
  unfold shift at h
  cases sf with
  | true => simp at h; subst h; simp
  | false =>
    simp only [Bool.false_eq_true, if_false] at h
    rw [Res.bind_iff] at h
    obtain ⟨m, hm, h⟩ := h
    rw [Res.bind_iff] at h
    obtain ⟨m1, hm1, h⟩ := h
    cases h
    refine ⟨rfl, by simp, fun _ => ⟨rfl, by ring, hm, m1, hm1, by ring⟩⟩

example : shift (fun _ a => .ok (a : ℚ)) (1 / 2) false ⟨92, 236, 0, 0, 0⟩ 1 7 =
    .ok ⟨92, 235, 235, -(1 / 2), 15 / 2⟩ := by decide +kernel

end CGMF.Props

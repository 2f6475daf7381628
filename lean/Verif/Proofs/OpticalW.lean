import Verif.Proofs.OpticalT
import Mathlib.Tactic.IntervalCases
import Mathlib.Algebra.Polynomial.Derivative
import Mathlib.Algebra.Polynomial.Eval.Degree

/-! # Optical model: partial waves, mesh and radial shapes -/

set_option linter.unusedSectionVars false

namespace CGMF.Opt

open CGMF.OptSpec

variable {K : Type} [Field K] [LinearOrder K] [IsStrictOrderedRing K]

theorem tranOf_range {su : Setup K} {e : Ext K} {l j : Nat} {t : K} (h : tranOf su e l j = .ok t) :
    0 ≤ t ∧ t ≤ 1 := by
  unfold tranOf at h
  obtain ⟨ab, _, h⟩ := Res.bind_eq_ok.mp h
  simp only at h
  split at h
  · cases h; exact ⟨le_refl _, zero_le_one⟩
  · obtain ⟨w, _, h⟩ := Res.bind_eq_ok.mp h
    obtain ⟨s, _, h⟩ := Res.bind_eq_ok.mp h
    cases h
    rw [clampT_eq]
    refine ⟨le_max_left _ _, max_le zero_le_one ?_⟩
    have := absolute_nonneg s
    linarith

/-- Weighted sum over partial waves `l, l+1, …`. -/
def waveSum : Nat → List (K × K) → K
  | _, [] => 0
  | l, (tp, tm) :: ts => ((l : K) + 1) * tp + (l : K) * tm + waveSum (l + 1) ts

theorem waveSum_append (xs : List (K × K)) (tp tm : K) : ∀ l : Nat,
    waveSum l (xs ++ [(tp, tm)]) = waveSum l xs + (((l + xs.length : Nat) : K) + 1) * tp +
      ((l + xs.length : Nat) : K) * tm := by
  induction xs with
  | nil => intro l; simp [waveSum]
  | cons x xs ih =>
    intro l
    obtain ⟨a, b⟩ := x
    simp only [List.cons_append, waveSum, List.length_cons]
    rw [ih (l + 1)]
    push_cast
    ring

theorem partialWaves_ok (su : Setup K) (e : Ext K) (cut : K) : ∀ (n l : Nat) (cx : K) (acc : List (K × K)),
    acc.length = l → cx = waveSum 0 acc →
    (∀ (k : Nat) (x : K × K), acc[k]? = some x → tranOf su e k 0 = .ok x.1 ∧ tranOf su e k 1 = .ok x.2) →
    ∀ r, partialWaves su e cut n l cx acc = .ok r →
      r.2.2 = waveSum 0 r.2.1 ∧
      (∀ (k : Nat) (x : K × K), r.2.1[k]? = some x → tranOf su e k 0 = .ok x.1 ∧ tranOf su e k 1 = .ok x.2) ∧
      ((r.1 = l + n ∧ r.2.1.length = l + n) ∨
        (l ≤ r.1 ∧ r.1 < l + n ∧ r.2.1.length = r.1 + 1 ∧
          ∃ tp tm c0 : K, r.2.1[r.1]? = some (tp, tm) ∧ c0 ≠ 0 ∧
            (((r.1 : Nat) : K) + 1) * tp + ((r.1 : Nat) : K) * tm = r.2.2 - c0 ∧ (r.2.2 - c0) / c0 < cut)) := by
  intro n
  induction n with
  | zero =>
    intro l cx acc hl hc ha r hr
    unfold partialWaves at hr
    cases hr
    exact ⟨hc, ha, Or.inl ⟨rfl, by simpa using hl⟩⟩
  | succ n ih =>
    intro l cx acc hl hc ha r hr
    unfold partialWaves at hr
    obtain ⟨tp, h1, hr⟩ := Res.bind_eq_ok.mp hr
    obtain ⟨tm, h2, hr⟩ := Res.bind_eq_ok.mp hr
    simp only at hr
    have hsum : cx + (((l : K) + 1) * tp + (l : K) * tm) = waveSum 0 (acc ++ [(tp, tm)]) := by
      rw [waveSum_append, hc, hl]
      simp
      ring
    have hacc : ∀ (k : Nat) (x : K × K), (acc ++ [(tp, tm)])[k]? = some x →
        tranOf su e k 0 = .ok x.1 ∧ tranOf su e k 1 = .ok x.2 := by
      intro k x hk
      by_cases hkl : k < acc.length
      · rw [List.getElem?_append_left hkl] at hk
        exact ha k x hk
      · have hk2 := (List.getElem?_eq_some_iff.mp hk).1
        simp at hk2
        have hkl' : k = l := by omega
        rw [hkl', List.getElem?_append_right (by omega), hl] at hk
        simp at hk
        cases hk
        rw [hkl']
        exact ⟨h1, h2⟩
    by_cases hb : cx ≠ 0 ∧ (((l : K) + 1) * tp + (l : K) * tm) / cx < cut
    · rw [if_pos hb] at hr
      cases hr
      refine ⟨hsum, hacc, Or.inr ⟨le_refl _, by omega, by simp [hl], tp, tm, cx, ?_, hb.1, ?_, ?_⟩⟩
      · simp only
        rw [List.getElem?_append_right (by omega), hl]
        simp
      · simp
      · simpa using hb.2
    · rw [if_neg hb] at hr
      obtain ⟨g1, g2, g3⟩ := ih (l + 1) _ _ (by simp [hl]) hsum hacc r hr
      refine ⟨g1, g2, ?_⟩
      rcases g3 with ⟨g3, g4⟩ | ⟨g3, g4, g5⟩
      · exact Or.inl ⟨by omega, by omega⟩
      · exact Or.inr ⟨by omega, by omega, g5⟩

theorem waveSum_eq (ts : List (K × K)) : waveSum 0 ts = partialSum ts := by
  induction ts using List.reverseRecOn with
  | nil => simp [waveSum, partialSum]
  | append_singleton ts x ih =>
    obtain ⟨a, b⟩ := x
    rw [waveSum_append, ih]
    unfold partialSum
    rw [List.length_append, List.length_singleton, List.range_succ, List.map_append, List.sum_append]
    have : ((List.range ts.length).map fun l : Nat =>
        ((l : K) + 1) * ((ts ++ [(a, b)]).getD l (0, 0)).1 + (l : K) * ((ts ++ [(a, b)]).getD l (0, 0)).2) =
        (List.range ts.length).map fun l : Nat =>
        ((l : K) + 1) * (ts.getD l (0, 0)).1 + (l : K) * (ts.getD l (0, 0)).2 := by
      apply List.map_congr_left
      intro l hl
      have hl := List.mem_range.mp hl
      simp only [List.getD, List.getElem?_append_left hl]
    rw [this]
    simp
    ring

/-! ## Mesh -/

theorem fillArr_spec {α : Type} (f : Nat → α) : ∀ (k i : Nat) (xs : List α),
    fillArr f k i xs = if k = 0 ∨ i + k ≤ xs.length then
      .ok ((List.range xs.length).map fun m : Nat =>
        if i ≤ m ∧ m < i + k then f m else (xs.getD m (f m))) else .ub := by
  intro k
  induction k with
  | zero =>
    intro i xs
    rw [if_pos (Or.inl rfl)]
    unfold fillArr
    congr 1
    apply List.ext_getElem?
    intro m
    by_cases hm : m < xs.length
    · rw [getElem_range_map _ hm, if_neg (by omega), List.getElem?_eq_getElem hm]
      simp [List.getD, List.getElem?_eq_getElem hm]
    · rw [List.getElem?_eq_none (by omega), List.getElem?_eq_none (by simp; omega)]
  | succ k ih =>
    intro i xs
    unfold fillArr
    unfold writeAt
    by_cases hi : i < xs.length
    · rw [if_pos (by constructor <;> omega)]
      simp only [Res.bind_ok]
      rw [ih (i + 1)]
      simp only [Int.toNat_natCast, List.length_set]
      by_cases hk : i + (k + 1) ≤ xs.length
      · rw [if_pos (Or.inr (by omega)), if_pos (Or.inr hk)]
        congr 1
        apply List.map_congr_left
        intro m hm
        have hm' := List.mem_range.mp hm
        by_cases h1 : i + 1 ≤ m ∧ m < i + 1 + k
        · rw [if_pos h1, if_pos (by omega)]
        · rw [if_neg h1]
          by_cases h2 : m = i
          · rw [if_pos (by omega)]
            subst h2
            simp [List.getD, hi]
          · rw [if_neg (by omega)]
            simp [List.getD, List.getElem?_set_ne (fun h => h2 h.symm)]
      · have hk0 : k ≠ 0 := by omega
        rw [if_neg (by omega), if_neg (by omega)]
    · rw [if_neg (by omega), if_neg (by omega)]
      rfl

theorem meshPoints_spec [FloorRing K] {rad width : K} (hw : 0 < width) (hr : 0 ≤ rad) :
    ∃ n : Int, 1 ≤ n ∧ rad < width * (n : K) ∧ width * (n : K) ≤ rad + width ∧
      meshPoints rad width = if 300 < n + 3 then .exit else .ok (n + 3, width * (n : K)) := by
  refine ⟨⌊rad / width⌋ + 1, ?_, ?_, ?_, ?_⟩
  · have : 0 ≤ ⌊rad / width⌋ := Int.floor_nonneg.mpr (by positivity)
    omega
  · have := Int.lt_floor_add_one (rad / width)
    rw [div_lt_iff₀ hw] at this
    push_cast
    linarith
  · have := Int.floor_le (rad / width)
    rw [le_div_iff₀ hw] at this
    push_cast
    linarith
  · have h1 : rad < width * ((⌊rad / width⌋ + 1 : Int) : K) := by
      have := Int.lt_floor_add_one (rad / width)
      rw [div_lt_iff₀ hw] at this
      push_cast
      linarith
    unfold meshPoints
    rw [if_neg hw.ne']
    simp only
    rw [if_neg (not_lt.mpr h1.le)]
    rfl

/-- Seven-point rule: exact for polynomials of degree at most six. -/
theorem lagrange_exact (p : Polynomial K) (hp : p.natDegree ≤ 6) (x h : K) (hh : h ≠ 0) :
    lagrange h (p.eval (x - 3 * h)) (p.eval (x - 2 * h)) (p.eval (x - h)) (p.eval (x + h)) (p.eval (x + 2 * h))
      (p.eval (x + 3 * h)) = p.derivative.eval x := by
  have hp' : p.natDegree < 7 := by omega
  have he : ∀ y, p.eval y = p.coeff 0 + p.coeff 1 * y + p.coeff 2 * y ^ 2 + p.coeff 3 * y ^ 3 +
      p.coeff 4 * y ^ 4 + p.coeff 5 * y ^ 5 + p.coeff 6 * y ^ 6 := by
    intro y
    rw [Polynomial.eval_eq_sum_range' hp']
    simp [Finset.sum_range_succ]
  have hd : p.derivative.eval x = p.coeff 1 + 2 * p.coeff 2 * x + 3 * p.coeff 3 * x ^ 2 +
      4 * p.coeff 4 * x ^ 3 + 5 * p.coeff 5 * x ^ 4 + 6 * p.coeff 6 * x ^ 5 := by
    have hd' : p.derivative.natDegree < 7 := lt_of_le_of_lt (Polynomial.natDegree_derivative_le p) (by omega)
    rw [Polynomial.eval_eq_sum_range' hd']
    have h7 : p.coeff 7 = 0 := Polynomial.coeff_eq_zero_of_natDegree_lt hp'
    simp [Finset.sum_range_succ, Polynomial.coeff_derivative, h7]
    ring
  rw [hd]
  simp only [he]
  unfold lagrange
  field_simp
  ring

/-! ## Radial shapes -/

theorem woodsSaxon_range {ex : K → K} (hex : ∀ y, 0 < ex y) (x r a : K) :
    0 < woodsSaxon ex x r a ∧ woodsSaxon ex x r a < 1 := by
  unfold woodsSaxon
  have := hex ((x - r) / a)
  constructor
  · positivity
  · rw [div_lt_one (by linarith)]; linarith

theorem derivWS_range {ex : K → K} (hex : ∀ y, 0 < ex y) (x r a : K) :
    0 < derivWS ex x r a ∧ derivWS ex x r a ≤ 1 := by
  unfold derivWS
  have := hex ((x - r) / a)
  simp only
  generalize ex ((x - r) / a) = y at *
  constructor
  · positivity
  · rw [div_le_one (by positivity)]
    nlinarith [mul_self_nonneg (1 - y)]

theorem radialMean_im_nonneg {ex : K → K} (hex : ∀ y, 0 < ex y) (re im : Nat) (x : K) (o : Omp K)
    (h1 : 0 ≤ o.vi) (h2 : 0 ≤ o.si) : 0 ≤ (radialMean ex re im x o).im := by
  unfold radialMean
  simp only
  have a := (woodsSaxon_range hex x o.rv o.av).1.le
  have b := (derivWS_range hex x o.rs o.as).1.le
  have c : 0 ≤ gaussian ex x o.rs o.as := (hex _).le
  split <;> positivity

theorem clampOmp_depths (potfm : Nat) (o : Omp K) :
    (clampOmp potfm o).2 = { o with vr := max o.vr 0, vi := max o.vi 0, si := max o.si 0 } := by
  have e1 : max o.vr 0 = if o.vr ≤ 0 then 0 else o.vr := by
    split
    · exact max_eq_right ‹_›
    · exact max_eq_left (not_le.mp ‹_›).le
  have e2 : max o.vi 0 = if o.vi ≤ 0 then 0 else o.vi := by
    split
    · exact max_eq_right ‹_›
    · exact max_eq_left (not_le.mp ‹_›).le
  have e3 : max o.si 0 = if o.si ≤ 0 then 0 else o.si := by
    split
    · exact max_eq_right ‹_›
    · exact max_eq_left (not_le.mp ‹_›).le
  rw [e1, e2, e3]
  unfold clampOmp
  simp only
  by_cases h1 : o.vr ≤ 0 <;> by_cases h2 : o.vi ≤ 0 <;> by_cases h3 : o.si ≤ 0 <;>
    simp only [h1, h2, h3, if_true, if_false]

/-- The low digit of the form number after the depth switches. -/
theorem clamp_lo (b1 b2 b3 : Bool) : ∀ p, p < 256 →
    ((let p1 := if b1 then p &&& 0x9f else p
      let p2 := if b2 then p1 &&& 0xfe else p1
      if b3 then p2 &&& 0xf9 else p2) &&& 0xff) &&& 0xf =
      (let d := p &&& 0xf
       let d2 := if b2 then d &&& 0xe else d
       if b3 then d2 &&& 0x9 else d2) := by
  cases b1 <;> cases b2 <;> cases b3 <;> decide +kernel

/-- The high digit of the form number after the depth switches. -/
theorem clamp_hi (b1 b2 b3 : Bool) : ∀ p, p < 256 →
    ((let p1 := if b1 then p &&& 0x9f else p
      let p2 := if b2 then p1 &&& 0xfe else p1
      if b3 then p2 &&& 0xf9 else p2) &&& 0xff) >>> 4 =
      (if b1 then (p >>> 4) &&& 0x9 else p >>> 4) := by
  cases b1 <;> cases b2 <;> cases b3 <;> decide +kernel

theorem clampOmp_form (potfm : Nat) (o : Omp K) :
    (clampOmp potfm o).1 =
      (let p1 := if decide (o.vr ≤ 0) then potfm &&& 0x9f else potfm
       let p2 := if decide (o.vi ≤ 0) then p1 &&& 0xfe else p1
       if decide (o.si ≤ 0) then p2 &&& 0xf9 else p2) := by
  unfold clampOmp
  simp only [decide_eq_true_eq]

theorem centralField_im (ex : K → K) (potfm : Nat) (o : Omp K) (x : K) (hp : potfm < 256)
    (h7 : potfm &&& 0xf ≠ 7) :
    (centralField ex potfm o x).im = (radialMean ex (potfm >>> 4) (potfm &&& 0xf) x
      { o with vr := max o.vr 0, vi := max o.vi 0, si := max o.si 0 }).im := by
  unfold centralField
  simp only
  rw [clampOmp_depths, clampOmp_form, clamp_lo _ _ _ potfm hp, clamp_hi _ _ _ potfm hp]
  have hd : potfm &&& 0xf < 16 := lt_of_le_of_lt Nat.and_le_right (by omega)
  simp only [radialMean]
  generalize potfm &&& 0xf = d at *
  by_cases h2 : o.vi ≤ 0 <;> by_cases h3 : o.si ≤ 0 <;> simp only [h2, h3, decide_true, decide_false, if_true,
    if_false, Bool.false_eq_true, max_eq_right]
  all_goals interval_cases d <;> first | exact absurd rfl h7 | simp

theorem centralField_re (ex : K → K) (potfm : Nat) (o : Omp K) (x : K) (hp : potfm < 256)
    (h : 0 < o.vr ∨ (potfm >>> 4 ≠ 2 ∧ potfm >>> 4 ≠ 3)) :
    (centralField ex potfm o x).re = (radialMean ex (potfm >>> 4) (potfm &&& 0xf) x
      { o with vr := max o.vr 0, vi := max o.vi 0, si := max o.si 0 }).re := by
  unfold centralField
  simp only
  rw [clampOmp_depths, clampOmp_form, clamp_lo _ _ _ potfm hp, clamp_hi _ _ _ potfm hp]
  have hd : potfm >>> 4 < 16 := by
    rw [Nat.shiftRight_eq_div_pow]; omega
  simp only [radialMean]
  generalize potfm >>> 4 = d at *
  by_cases h1 : o.vr ≤ 0
  · have h' := h.resolve_left (not_lt.mpr h1)
    simp only [h1, decide_true, if_true, max_eq_right]
    interval_cases d <;> first | exact absurd rfl h'.1 | exact absurd rfl h'.2 | simp
  · simp only [h1, decide_false, if_false, Bool.false_eq_true]

end CGMF.Opt

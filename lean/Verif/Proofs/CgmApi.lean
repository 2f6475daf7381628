import Verif.Model.CgmApi
import Verif.Spec.CgmLines
import Verif.Proofs.Prefission
import Verif.Tactics

/-!
# Lemmas for the `cgm` interface
-/

namespace CGMF.CgmApi

open CGMF.MC CGMF.Gamcas

section
variable {K : Type} [Field K] [LinearOrder K] [IsStrictOrderedRing K] [FloorRing K]

variable {N : Nat} {eps de : K}

theorem findBin_some (heps : 0 < eps) (hde : 0 < de) (hde1 : de ≤ 1) (he2 : eps < de / 2) {e : K} (he : 0 ≤ e)
    (hN : e ≤ N * de) {k : Nat} : (1 ≤ k ∧ findBin N eps e de = some k) ↔ InBin eps de k e := by
  unfold findBin InBin
  by_cases h1 : |e| ≤ eps
  · rw [if_pos h1]
    rw [abs_of_nonneg he] at h1
    constructor
    · rintro ⟨a, b⟩; cases b; omega
    · rintro ⟨_, _, _, h⟩; exfalso; linarith
  rw [if_neg h1, if_neg (by push Not; exact ⟨he, hN⟩)]
  by_cases h2 : e < de * (1 / 2)
  · rw [if_pos h2]
    constructor
    · rintro ⟨a, b⟩; cases b; omega
    · rintro ⟨_, _, _, h⟩; exfalso; linarith
  rw [if_neg h2]
  simp only []
  have hx : (e + 1 / 2 * de) / de = e / de + 1 / 2 := by field_simp
  rw [hx]
  set x := e / de with hxdef
  have hxe : x * de = e := by rw [hxdef]; field_simp
  have hx0 : 0 ≤ x := div_nonneg he hde.le
  have hfl := Int.floor_le (x + 1 / 2 + eps)
  have hfl2 := Int.lt_floor_add_one (x + 1 / 2 + eps)
  have hk0 : 0 ≤ ⌊x + 1 / 2 + eps⌋ := Int.floor_nonneg.mpr (by linarith)
  have c1 : de * ((⌊x + 1 / 2 + eps⌋ : Int) : K) ≤ e + 1 / 2 * de + eps := by
    have := mul_le_mul_of_nonneg_right hfl hde.le
    have h3 : eps * de ≤ eps := by nlinarith
    nlinarith
  have c2 : e + 1 / 2 * de < de * (((⌊x + 1 / 2 + eps⌋ : Int) : K) + 1) := by
    have := mul_lt_mul_of_pos_right hfl2 hde
    nlinarith
  rw [if_pos ⟨c1, c2⟩]
  have hkey : (some (⌊x + 1 / 2 + eps⌋).toNat = some k) ↔ ⌊x + 1 / 2 + eps⌋ = (k : Int) := by
    constructor
    · intro h; cases h; omega
    · intro h; rw [h]; simp
  rw [hkey, Int.floor_eq_iff]
  have a1 : ((k : K) - 1 / 2 - eps) * de ≤ e ↔ (((k : Int) : K)) ≤ x + 1 / 2 + eps := by
    rw [← hxe]
    constructor
    · intro h
      have := le_of_mul_le_mul_right h hde
      push_cast; linarith
    · intro h
      push_cast at h
      exact mul_le_mul_of_nonneg_right (by linarith) hde.le
  have a2 : e < ((k : K) + 1 / 2 - eps) * de ↔ x + 1 / 2 + eps < ((k : Int) : K) + 1 := by
    rw [← hxe]
    constructor
    · intro h
      have := lt_of_mul_lt_mul_right h hde.le
      push_cast; linarith
    · intro h
      push_cast at h
      exact mul_lt_mul_of_pos_right (by linarith) hde
  rw [← a1, ← a2]
  constructor
  · rintro ⟨a, b, c⟩; exact ⟨a, b, c, by linarith⟩
  · rintro ⟨a, b, c, _⟩; exact ⟨a, b, c⟩

/-- An energy lies in at most one bin. -/
theorem InBin.unique (hde : 0 < de) {e : K} {k l : Nat} (hk : InBin eps de k e) (hl : InBin eps de l e) : k = l := by
  obtain ⟨_, a1, a2, _⟩ := hk
  obtain ⟨_, b1, b2, _⟩ := hl
  by_contra h
  rcases Nat.lt_or_gt_of_ne h with h | h
  · have h' : (k : K) + 1 ≤ l := by exact_mod_cast h
    nlinarith [mul_le_mul_of_nonneg_right h' hde.le]
  · have h' : (l : K) + 1 ≤ k := by exact_mod_cast h
    nlinarith [mul_le_mul_of_nonneg_right h' hde.le]

/-- The centre of the bin is near. -/
theorem InBin.close (hde : 0 < de) (heps : 0 < eps) {e : K} {k : Nat} (hk : InBin eps de k e) :
    |(k : K) * de - e| ≤ de / 2 + eps * de := by
  obtain ⟨_, a1, a2, _⟩ := hk
  have := mul_pos heps hde
  rw [abs_le]
  constructor <;> nlinarith

/-- An energy of at least half a bin, inside the range, lies in a bin of the array. -/
theorem exists_bin (heps : 0 < eps) (hde : 0 < de) (he2 : eps < de / 2) (hde1 : de ≤ 1) {e : K} (he : de / 2 ≤ e)
    (hN : e < ((N : K) - 1 / 2 - eps) * de) : ∃ k, k < N ∧ InBin eps de k e := by
  have hx : (e / de) * de = e := by field_simp
  set x := e / de with hxd
  have h1 : 1 / 2 ≤ x := by rw [hxd, le_div_iff₀ hde]; linarith
  have hfl := Int.floor_le (x + 1 / 2 + eps)
  have hfl2 := Int.lt_floor_add_one (x + 1 / 2 + eps)
  have hk1 : 1 ≤ ⌊x + 1 / 2 + eps⌋ := Int.le_floor.mpr (by push_cast; linarith)
  obtain ⟨k, hk⟩ := Int.eq_ofNat_of_zero_le (show 0 ≤ ⌊x + 1 / 2 + eps⌋ by omega)
  rw [hk] at hfl hfl2 hk1
  push_cast at hfl hfl2
  refine ⟨k, ?_, by omega, ?_, ?_, he⟩
  · have : x < (N : K) - 1 / 2 - eps := by rw [← hx] at hN; exact lt_of_mul_lt_mul_right hN hde.le
    have : (k : K) < N := by linarith
    exact_mod_cast this
  · rw [← hx]; exact mul_le_mul_of_nonneg_right (by linarith) hde.le
  · rw [← hx]; exact mul_lt_mul_of_pos_right (by linarith) hde

theorem count_eq (heps : 0 < eps) (hde : 0 < de) (hde1 : de ≤ 1) (he2 : eps < de / 2) {e : K} (he : 0 ≤ e)
    (hN : e < ((N : K) - 1 / 2 - eps) * de) (f : Nat → K) :
    count N eps de ((List.range N).map f) e
      = .ok ((List.range N).map fun k : Nat => f k + if InBin eps de k e then 1 else 0) := by
  have hN' : e ≤ N * de := by nlinarith
  have hspec := fun k => findBin_some (N := N) heps hde hde1 he2 he hN' (k := k)
  unfold count
  rcases hb : findBin N eps e de with _ | _ | k
  · simp only []
    congr 1
    apply List.map_congr_left
    intro k _
    rw [if_neg, add_zero]
    intro h
    have := (hspec k).mpr h
    rw [hb] at this
    simp at this
  · simp only []
    congr 1
    apply List.map_congr_left
    intro k _
    rw [if_neg, add_zero]
    intro h
    have := (hspec k).mpr h
    rw [hb] at this
    obtain ⟨a, b⟩ := this
    cases b
    omega
  · simp only []
    have hin := (hspec (k + 1)).mp ⟨by omega, hb⟩
    have hlt : k + 1 < N := by
      by_contra h
      have h' : (N : K) ≤ ((k + 1 : Nat) : K) := by exact_mod_cast not_lt.mp h
      have := hin.2.1
      have : ((N : K) - 1 / 2 - eps) * de ≤ e :=
        le_trans (mul_le_mul_of_nonneg_right (by linarith) hde.le) this
      linarith
    have hlen : 0 ≤ ((k + 1 : Nat) : Int) ∧ ((k + 1 : Nat) : Int).toNat < ((List.range N).map f).length := by
      constructor
      · omega
      · rw [List.length_map, List.length_range]; omega
    unfold readAt writeAt
    rw [dif_pos hlen]
    simp only [Res.bind]
    rw [if_pos hlen]
    congr 1
    apply List.ext_getElem
    · simp
    · intro i h1 h2
      rw [List.getElem_set]
      have hi : i < N := by simpa using h2
      simp only [List.getElem_map, List.getElem_range]
      have e1 : ((k + 1 : Nat) : Int).toNat = k + 1 := by omega
      simp only [e1]
      by_cases hik : k + 1 = i
      · subst hik
        rw [if_pos rfl, if_pos hin]
      · rw [if_neg hik, if_neg, add_zero]
        intro h
        exact hik (InBin.unique hde hin h)

/-- The two spectra after all particles. -/
theorem tallyAll_eq (heps : 0 < eps) (hde : 0 < de) (hde1 : de ≤ 1) (he2 : eps < de / 2) (hs : List (Hist K))
    (he : ∀ h ∈ hs, 0 ≤ h.ep ∧ h.ep < ((N : K) - 1 / 2 - eps) * de) (f g : Nat → K) :
    tallyAll N eps de hs ((List.range N).map f, (List.range N).map g)
      = .ok ((List.range N).map fun k : Nat =>
              f k + ((hs.countP fun h => decide (h.id ≠ .neutron ∧ InBin eps de k h.ep) : Nat) : K),
             (List.range N).map fun k : Nat =>
              g k + ((hs.countP fun h => decide (h.id = .neutron ∧ InBin eps de k h.ep) : Nat) : K)) := by
  induction hs generalizing f g with
  | nil => simp [tallyAll]
  | cons h hs ih =>
    have h0 := he h (List.mem_cons_self ..)
    have ht := fun x hx => he x (List.mem_cons_of_mem _ hx)
    unfold tallyAll tally
    by_cases hn : h.id = .neutron
    · rw [if_pos hn, count_eq heps hde hde1 he2 h0.1 h0.2]
      simp only [Res.bind]
      rw [ih ht]
      congr 2
      · apply List.map_congr_left
        intro k _
        rw [List.countP_cons]
        simp [hn]
      · apply List.map_congr_left
        intro k _
        rw [List.countP_cons]
        by_cases hb : InBin eps de k h.ep
        · simp [hn, hb]; ring
        · simp [hn, hb]
    · rw [if_neg hn, count_eq heps hde hde1 he2 h0.1 h0.2]
      simp only [Res.bind]
      rw [ih ht]
      congr 2
      · apply List.map_congr_left
        intro k _
        rw [List.countP_cons]
        by_cases hb : InBin eps de k h.ep
        · simp [hn, hb]; ring
        · simp [hn, hb]
      · apply List.map_congr_left
        intro k _
        rw [List.countP_cons]
        simp [hn]

omit [FloorRing K] [IsStrictOrderedRing K] in
theorem lines_eq (cap : Nat) (low de : K) (f : Nat → K) (n k : Nat) (acc : List K) (ha : acc.length ≤ cap) :
    lines cap low de k ((List.range' k n).map f) acc
      = (acc ++ ((List.range' k n).filter fun i => decide (0 < lowfilter low (f i))).map (lineEnergy de)).take cap := by
  induction n generalizing k acc with
  | zero => simp [lines, List.take_of_length_le ha]
  | succ n ih =>
    rw [List.range'_succ, List.map_cons, lines]
    by_cases h : 0 < lowfilter low (f k)
    · rw [if_pos h, List.filter_cons_of_pos (by simpa using h), List.map_cons]
      by_cases h2 : acc.length < cap
      · rw [if_pos h2, ih _ _ (by simp; omega)]
        simp
      · rw [if_neg h2, ih _ _ ha]
        have : acc.length = cap := by omega
        rw [List.take_append_of_le_length (by omega), List.take_append_of_le_length (by omega)]
    · rw [if_neg h, List.filter_cons_of_neg (by simpa using h), ih _ _ ha]

omit [FloorRing K] in
theorem lowfilter_count {low : K} (h0 : 0 < low) (h1 : low ≤ 1) (n : Nat) :
    0 < lowfilter low ((n : K) / ((1 : Nat) : K)) ↔ 0 < n := by
  unfold lowfilter
  rw [Nat.cast_one, div_one]
  rcases Nat.eq_zero_or_pos n with rfl | hn
  · simp
  · have : (1 : K) ≤ n := by exact_mod_cast hn
    rw [abs_of_nonneg (by linarith), if_neg (by linarith)]
    constructor
    · intro _; exact hn
    · intro _; linarith

omit [FloorRing K] [IsStrictOrderedRing K] in
theorem lineEnergy_pos [CharZero K] (de : K) {k : Nat} (hk : 1 ≤ k) : lineEnergy de k = k * de := by
  unfold lineEnergy
  rw [if_pos (by omega)]
  field_simp
  ring

/-- Bins hit by one kind of particle. -/
def bins (N : Nat) (eps de : K) (p : Pid → Prop) [DecidablePred p] (hs : List (Hist K)) : List Nat :=
  (List.range N).filter fun k => decide (∃ h ∈ hs, p h.id ∧ InBin eps de k h.ep)

theorem lines_bins {low : K} (h0 : 0 < low) (h1 : low ≤ 1) (cap : Nat) (p : Pid → Prop) [DecidablePred p]
    (hs : List (Hist K)) :
    lines cap low de 0 (normalise 1 ((List.range N).map fun k : Nat =>
        0 + ((hs.countP fun h => decide (p h.id ∧ InBin eps de k h.ep) : Nat) : K))) []
      = ((bins N eps de p hs).map fun k : Nat => (k : K) * de).take cap := by
  unfold normalise
  rw [List.map_map, List.range_eq_range', lines_eq _ _ _ _ _ _ _ (by simp), List.nil_append]
  congr 1
  unfold bins
  rw [← List.range_eq_range']
  have e1 : ((List.range N).filter fun i => decide (0 < lowfilter low (((fun x => x / ((1 : Nat) : K)) ∘ fun k : Nat =>
        0 + ((hs.countP fun h => decide (p h.id ∧ InBin eps de k h.ep) : Nat) : K)) i)))
      = (List.range N).filter fun k => decide (∃ h ∈ hs, p h.id ∧ InBin eps de k h.ep) := by
    apply List.filter_congr
    intro k _
    simp only [Function.comp, zero_add]
    rw [decide_eq_decide, lowfilter_count h0 h1, List.countP_pos_iff]
    simp
  rw [e1]
  apply List.map_congr_left
  intro k hk
  have := (List.mem_filter.mp hk).2
  simp only [decide_eq_true_eq] at this
  obtain ⟨h, _, _, hin⟩ := this
  exact lineEnergy_pos de hin.1

end
end CGMF.CgmApi

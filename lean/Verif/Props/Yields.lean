import Verif.Proofs.Yields
import Mathlib.Data.Rat.Floor
import Mathlib.Algebra.BigOperators.Group.List.Lemmas

/-!
# C44, C45, C46, C49: yields

Readable from the statements with `Model/Yields.lean`: `yieldA` is the routine giving the yield of one mass,
`rawYields`/`normYields` the tables built by `constructYields`, `column`/`column2` the two charge tables of
`buildYZA`, `buildYZ` the charge yields and `rescale`/`avTKE` the average kinetic energies.
-/

namespace CGMF.Props

open CGMF CGMF.Pre CGMF.Yld

set_option linter.unusedSectionVars false

variable {K : Type} [Field K] [LinearOrder K] [IsStrictOrderedRing K] [FloorRing K]

/-- **C44.** For any coefficients, energy and compound nucleus, the yield of a mass is not negative and equals
the yield of the complementary mass. Nothing is assumed about `exp`. -/
theorem C44_symmetric (exp : K → K) (c cut : K) (hcut : 0 ≤ cut) (t : Coef K) (acn shift : Int) (e : K) (m0 : Mode K)
    (ms : List (Mode K)) (h : modes exp t acn shift e = .ok (m0, ms)) (A : Int) :
    0 ≤ yieldA exp c cut acn m0 ms A ∧ yieldA exp c cut acn m0 ms (acn - A) = yieldA exp c cut acn m0 ms A :=
  ⟨yieldA_nonneg exp c cut hcut acn m0 ms A, yieldA_symm exp c cut acn m0 (modes_ok h).1 ms A⟩

/-- A stand-in for the exponential in the examples. -/
def exExp (x : ℚ) : ℚ := 1 / (1 + x * x)

def exCoef : Coef ℚ := ⟨[0, 1, 2], [0, 5, 7], [10, 4, 6], [1, 1, 1], [0, 14, 13], [0, 0, 0]⟩

/-- The yield of mass `A` in the examples. -/
def exYield (A : Int) : ℚ :=
  match modes exExp exCoef 24 0 1 with
  | .ok (m0, ms) => yieldA exExp 2 (1 / 10) 24 m0 ms A
  | _ => -1

example : exYield 10 = exYield 14 ∧ 0 < exYield 10 ∧ exYield 10 ≠ exYield 11 ∧ exYield 1 = 0 := by decide +kernel

/-- **C44.** The table of mass yields built for an event: every entry is the raw yield divided by the total,
so the entries are not negative, sum to one and are equal for complementary masses. `numa` is the size of the
table. -/
theorem C44_normalised (exp : K → K) (c cut : K) (hcut : 0 ≤ cut) (t : Coef K) (acn shift : Int) (e : K) (m0 : Mode K)
    (ms : List (Mode K)) (h : modes exp t acn shift e = .ok (m0, ms)) (numa : Nat)
    (hp : ∃ a : Nat, a < numa ∧ 0 < yieldA exp c cut acn m0 ms a) :
    let ys := normYields (rawYields numa (yieldA exp c cut acn m0 ms))
    ys.length = numa ∧ ys.sum = 1 ∧ (∀ y ∈ ys, 0 ≤ y) ∧
      (∃ T : K, 0 < T ∧ ∀ a : Nat, a < numa → ys[a]? = some (yieldA exp c cut acn m0 ms a / T)) ∧
      ∀ a b : Nat, (a : Int) + b = acn → a < numa → b < numa → ys[a]? = ys[b]? := by
  intro ys
  have h0 : ∀ y ∈ rawYields numa (yieldA exp c cut acn m0 ms), 0 ≤ y := by
    intro y hy
    unfold rawYields at hy
    rw [List.mem_map] at hy
    obtain ⟨a, _, rfl⟩ := hy
    exact yieldA_nonneg exp c cut hcut acn m0 ms _
  have hpos : 0 < (rawYields numa (yieldA exp c cut acn m0 ms)).sum := by
    apply sum_pos_of h0
    obtain ⟨a, ha, hv⟩ := hp
    exact ⟨_, List.mem_map.mpr ⟨a, List.mem_range.mpr ha, rfl⟩, hv⟩
  have hys : ys = (rawYields numa (yieldA exp c cut acn m0 ms)).map (· / (rawYields numa (yieldA exp c cut acn m0 ms)).sum) :=
    normYields_all h0
  have hget : ∀ a : Nat, a < numa → ys[a]? =
      some (yieldA exp c cut acn m0 ms a / (rawYields numa (yieldA exp c cut acn m0 ms)).sum) := by
    intro a ha
    rw [hys]
    simp [rawYields, ha]
  refine ⟨by rw [hys]; simp [rawYields], ?_, ?_, ⟨_, hpos, hget⟩, ?_⟩
  · rw [hys, sum_map_div]; exact div_self (ne_of_gt hpos)
  · intro y hy
    rw [hys, List.mem_map] at hy
    obtain ⟨z, hz, rfl⟩ := hy
    exact div_nonneg (h0 z hz) (le_of_lt hpos)
  · intro a b hab ha hb
    rw [hget a ha, hget b hb]
    have e : ((b : Nat) : Int) = acn - a := by omega
    rw [e, yieldA_symm exp c cut acn m0 (modes_ok h).1 ms a]

example : (normYields (rawYields 30 exYield)).sum = 1 ∧ 0 < (normYields (rawYields 30 exYield)).getD 10 0 ∧
    (normYields (rawYields 30 exYield)).getD 10 0 = (normYields (rawYields 30 exYield)).getD 14 0 := by decide +kernel

/-- **C44.** The mass range used for sampling starts at the first and ends at the last mass of positive
yield; when the yields vanish outside `0..A_c` it is symmetric: `Amin + Amax = A_c`. -/
theorem C44_range (exp : K → K) (c cut : K) (hcut : 0 ≤ cut) (t : Coef K) (acn shift : Int) (e : K) (m0 : Mode K)
    (ms : List (Mode K)) (h : modes exp t acn shift e = .ok (m0, ms)) (numa : Nat) (hacn : acn < numa)
    (hneg : ∀ A : Int, A < 0 → yieldA exp c cut acn m0 ms A = 0)
    (hp : ∃ a : Nat, a < numa ∧ 0 < yieldA exp c cut acn m0 ms a) :
    let ys := rawYields numa (yieldA exp c cut acn m0 ms)
    amin ys + amax ys = acn ∧ 0 < yieldA exp c cut acn m0 ms (amin ys) ∧ 0 < yieldA exp c cut acn m0 ms (amax ys) ∧
      ∀ A : Int, 0 < yieldA exp c cut acn m0 ms A → amin ys ≤ A ∧ A ≤ amax ys := by
  intro ys
  have hsym := yieldA_symm exp c cut acn m0 (modes_ok h).1 ms
  have hget : ∀ a : Nat, a < numa → ys[a]? = some (yieldA exp c cut acn m0 ms a) := by
    intro a ha
    simp [ys, rawYields, ha]
  have hlen : ys.length = numa := by simp [ys, rawYields]
  have hp' : ∃ (a : Nat) (v : K), ys[a]? = some v ∧ 0 < v := by
    obtain ⟨a, ha, hv⟩ := hp
    exact ⟨a, _, hget a ha, hv⟩
  obtain ⟨a, va, ea, ha, hva, la⟩ := amin_spec hp'
  obtain ⟨b, vb, eb, hb, hvb, lb⟩ := amax_spec hp'
  have han : a < numa := by rw [← hlen]; exact (List.getElem?_eq_some_iff.mp ha).1
  have hbn : b < numa := by rw [← hlen]; exact (List.getElem?_eq_some_iff.mp hb).1
  rw [hget a han] at ha
  rw [hget b hbn] at hb
  simp only [Option.some.injEq] at ha hb
  have hall : ∀ A : Int, 0 < yieldA exp c cut acn m0 ms A → (a : Int) ≤ A ∧ A ≤ b := by
    intro A hA
    have h1 : 0 ≤ A := by
      by_contra hc
      rw [hneg A (by omega)] at hA
      exact lt_irrefl _ hA
    have h2 : 0 ≤ acn - A := by
      by_contra hc
      rw [← hsym A, hneg (acn - A) (by omega)] at hA
      exact lt_irrefl _ hA
    have hAn : A.toNat < numa := by omega
    have hg := hget A.toNat hAn
    have hc : ((A.toNat : Nat) : Int) = A := by omega
    rw [hc] at hg
    have := la _ _ hg hA
    have := lb _ _ hg hA
    omega
  rw [ea, eb]
  have pa : 0 < yieldA exp c cut acn m0 ms (a : Int) := by rw [ha]; exact hva
  have pb : 0 < yieldA exp c cut acn m0 ms (b : Int) := by rw [hb]; exact hvb
  refine ⟨?_, pa, pb, hall⟩
  have x1 := hall (acn - a) (by rw [hsym]; exact pa)
  have x2 := hall (acn - b) (by rw [hsym]; exact pb)
  omega

example : amin (rawYields 30 exYield) = 5 ∧ amax (rawYields 30 exYield) = 19 := by decide +kernel

/-- **C44, finding:** the tabulated energy slope of the width of the symmetric mode is never used (the slope of
the first asymmetric mode is used in its place): replacing it by any value changes nothing. -/
theorem C44_slope_ignored (exp : K → K) (t : Coef K) (v : K) (acn shift : Int) (e : K) :
    modes exp { t with sigb := t.sigb.set 0 v } acn shift e = modes exp t acn shift e := by
  have r : ∀ i : Int, 1 ≤ i → readAt (t.sigb.set 0 v) i = readAt t.sigb i := by
    intro i hi
    obtain ⟨k, hk⟩ : ∃ k : Nat, i.toNat = k + 1 := ⟨i.toNat - 1, by omega⟩
    unfold readAt
    simp only [List.length_set]
    by_cases h : 0 ≤ i ∧ i.toNat < t.sigb.length
    · rw [dif_pos h, dif_pos h, List.getElem_set_ne (by omega)]
    · rw [dif_neg h, dif_neg h]
  unfold modes
  simp only [r 1 (by norm_num), r 2 (by norm_num)]

example : (match modes exExp exCoef 24 0 1, modes exExp { exCoef with sigb := [77, 1, 1] } 24 0 1 with
    | .ok x, .ok y => decide (x = y) | _, _ => false) = true := by decide +kernel

/-- **C44, finding:** the bound check on the number of pre-fission neutrons admits one value too many: with
four-entry tables, four neutrons read outside them. -/
theorem C44_row_overrun (supp : List Bool) (hl : supp.length = 4) (acn a0 : Int) :
    rowYA supp acn a0 4 = .ub ∧ ∀ n : Int, 0 ≤ n → n ≠ 4 → ∃ r, rowYA supp acn a0 n = .ok r := by
  constructor
  · unfold rowYA
    rw [if_neg (by norm_num)]
    unfold readAt
    rw [dif_neg (by simp [hl])]
    rfl
  · intro n h0 h4
    unfold rowYA
    by_cases h : 4 < n
    · exact ⟨_, if_pos h⟩
    · rw [if_neg h]
      have : n.toNat < supp.length := by omega
      have e : readAt supp n = .ok supp[n.toNat] := readAt_ok_iff.mpr ⟨h0, by simp [this]⟩
      rw [e]
      exact ⟨_, rfl⟩

example : rowYA [true, true, false, true] 236 236 4 = .ub ∧ rowYA [true, true, false, true] 234 236 2 = .ok (0, -2) := by
  decide +kernel

/-! ## Charge distribution -/

/-- **C45.** The charge distribution of one mass. For a monotone `erf` and positive odd-even factors the
entries are not negative; if any charge has a probability they sum to the mass yield; and each is a common
multiple of the gaussian integral over the unit interval about the charge times the odd-even factor. -/
theorem C45_column (erf : K → K) (herf : Monotone erf) (r2 : K) (hr : 0 < r2) (p : Wahl K) (hz : 0 < p.fz)
    (hn : 0 < p.fn) (dZ : Nat) (A : Int) (ya : K) (hy : 0 ≤ ya) :
    (column erf r2 p dZ A ya).length = 2 * dZ + 1 ∧
    (∀ v ∈ column erf r2 p dZ A ya, 0 ≤ v) ∧
    ((∃ v ∈ rawColumn erf r2 p dZ A, v ≠ 0) → (column erf r2 p dZ A ya).sum = ya) ∧
    (0 < p.c → ∃ N : K, ∀ j : Nat, j ≤ 2 * dZ → ∀ z : Int, z = ⌊p.z0 + 1 / 2⌋ + j - dZ →
      (column erf r2 p dZ A ya)[j]? = some (N *
        ((if z % 2 = 0 then p.fz else p.fz⁻¹) * (if (A - z) % 2 = 0 then p.fn else p.fn⁻¹) *
          (erf (((z : K) + 1 / 2 - p.z0) / (r2 * p.c)) - erf (((z : K) - 1 / 2 - p.z0) / (r2 * p.c)))))) := by
  have hraw : ∀ v ∈ rawColumn erf r2 p dZ A, 0 ≤ v := by
    intro v hv
    unfold rawColumn at hv
    rw [List.mem_map] at hv
    obtain ⟨j, _, rfl⟩ := hv
    exact rawZA_nonneg herf hr hz hn _ _ _
  refine ⟨?_, normColumn_nonneg hy hraw, ?_, ?_⟩
  · unfold column normColumn
    split <;> simp [rawColumn]
  · rintro ⟨v, hv, hv0⟩
    apply normColumn_sum
    exact ne_of_gt (sum_pos_of hraw ⟨v, hv, lt_of_le_of_ne (hraw v hv) (Ne.symm hv0)⟩)
  · intro hc
    refine ⟨(if (rawColumn erf r2 p dZ A).sum = 0 then 1 else ya / (rawColumn erf r2 p dZ A).sum) / 2, ?_⟩
    intro j hj z hzz
    have hjr : (rawColumn erf r2 p dZ A)[j]? = some (rawZA erf r2 p dZ A j) := by
      unfold rawColumn
      simp [show j < 2 * dZ + 1 by omega]
    have hval : rawZA erf r2 p dZ A j = 1 / 2 *
        ((if z % 2 = 0 then p.fz else p.fz⁻¹) * (if (A - z) % 2 = 0 then p.fn else p.fn⁻¹) *
          (erf (((z : K) + 1 / 2 - p.z0) / (r2 * p.c)) - erf (((z : K) - 1 / 2 - p.z0) / (r2 * p.c)))) := by
      have ez : p.iz + (j : Int) - dZ = z := by rw [hzz]; rfl
      unfold rawZA
      simp only []
      rw [if_pos hc, ez, oddEven_eq]
      have a1 : (z : K) - p.z0 + 1 / 2 = (z : K) + 1 / 2 - p.z0 := by ring
      have a2 : (z : K) - p.z0 - 1 / 2 = (z : K) - 1 / 2 - p.z0 := by ring
      rw [a1, a2]
      ring
    unfold column normColumn
    split
    · rw [hjr, hval]
    · rw [List.getElem?_map, hjr, hval]
      simp only [Option.map_some]
      congr 1
      ring

/-- A stand-in for the error function in the examples. -/
def exErf (x : ℚ) : ℚ := max (-1) (min 1 x)

example : column exErf (7 / 5) ⟨41 / 10, 2, 6 / 5, 11 / 10⟩ 2 10 (3 / 10) ≠ [] ∧
    (column exErf (7 / 5) ⟨41 / 10, 2, 6 / 5, 11 / 10⟩ 2 10 (3 / 10)).sum = 3 / 10 ∧
    ∀ v ∈ column exErf (7 / 5) ⟨41 / 10, 2, 6 / 5, 11 / 10⟩ 2 10 (3 / 10), 0 < v := by decide +kernel

/-- **C45.** Without a width all the yield goes to the nearest charge. -/
theorem C45_no_width (erf : K → K) (r2 : K) (p : Wahl K) (hc : p.c ≤ 0) (dZ : Nat) (A : Int) (ya : K) :
    ∀ j : Nat, j ≤ 2 * dZ → (column erf r2 p dZ A ya)[j]? = some (if j = dZ then ya else 0) := by
  have hraw : rawColumn erf r2 p dZ A = List.replicate dZ 0 ++ 1 :: List.replicate dZ 0 := by
    unfold rawColumn
    apply List.ext_getElem
    · simp; omega
    · intro i h1 h2
      simp only [List.getElem_map, List.getElem_range]
      unfold rawZA
      simp only []
      rw [if_neg (not_lt.mpr hc)]
      by_cases hi : i = dZ
      · subst hi; simp
      · rw [if_neg (by omega)]
        by_cases hl : i < dZ
        · rw [List.getElem_append_left (by simpa using hl)]; simp
        · rw [List.getElem_append_right (by simp; omega)]
          simp only [List.length_replicate]
          rw [List.getElem_cons]
          rw [dif_neg (by omega)]; simp
  have hsum : (rawColumn erf r2 p dZ A).sum = 1 := by rw [hraw]; simp
  intro j hj
  unfold column normColumn
  rw [if_neg (by rw [hsum]; exact one_ne_zero), List.getElem?_map, hsum, hraw]
  by_cases h : j = dZ
  · subst h; simp
  · rw [if_neg h]
    by_cases hl : j < dZ
    · rw [List.getElem?_append_left (by simpa using hl)]; simp [hl]
    · rw [List.getElem?_append_right (by simp; omega)]
      simp only [List.length_replicate]
      obtain ⟨k, hk⟩ : ∃ k, j - dZ = k + 1 := ⟨j - dZ - 1, by omega⟩
      rw [hk, List.getElem?_cons_succ]
      simp [show k < dZ by omega]

example : column exErf (7 / 5) ⟨41 / 10, 0, 1, 1⟩ 2 10 (3 / 10) = [0, 0, 3 / 10, 0, 0] := by decide +kernel

/-- The table indexed by charge vanishes outside the window of charges `[lo, lo + n)`. -/
def Clean (old : List K) (lo n : Nat) : Prop := ∀ k : Nat, k < lo ∨ lo + n ≤ k → old.getD k 0 = 0

/-- **C45.** The table indexed by charge. As long as the window of charges fits and nothing was left outside it,
the table holds exactly the distribution of `C45_column` at its charges and zero elsewhere, so its sum over all
charges is the mass yield; and this situation is restored after each call, whatever the mass yields of the
successive events. -/
theorem C45_table (erf : K → K) (r2 : K) (p : Wahl K) (dZ : Nat) (A : Int) (ya : K) (old : List K)
    (lo : Nat) (hlo : (lo : Int) = p.iz - dZ) (hfit : lo + (2 * dZ + 1) ≤ old.length) (hcl : Clean old lo (2 * dZ + 1)) :
    ∃ t, column2 erf r2 p dZ A ya old = .ok t ∧ t.length = old.length ∧ Clean t lo (2 * dZ + 1) ∧
      t.sum = (column erf r2 p dZ A ya).sum ∧
      (∀ j : Nat, j ≤ 2 * dZ → t[lo + j]? = (column erf r2 p dZ A ya)[j]?) := by
  have hlr : (rawColumn erf r2 p dZ A).length = 2 * dZ + 1 := by simp [rawColumn]
  obtain ⟨w, hw⟩ := putWindow_run (rawColumn erf r2 p dZ A) (p.iz - dZ) old (by omega) (by rw [hlr]; omega)
  obtain ⟨hw', _⟩ := putWindow_ok hw
  have hn : (p.iz - (dZ : Int)).toNat = lo := by omega
  rw [hn, hlr] at hw'
  have hzero : ∀ l : List K, (∀ v ∈ l, v = 0) → l.sum = 0 := by
    intro l hl
    exact List.sum_eq_zero hl
  have htake : ∀ v ∈ old.take lo, v = 0 := by
    intro v hv
    obtain ⟨k, hk⟩ := List.mem_iff_getElem?.mp hv
    rw [List.getElem?_take] at hk
    split at hk
    · have := hcl k (Or.inl (by omega))
      rw [List.getD_eq_getElem?_getD, hk] at this
      exact this
    · cases hk
  have hdrop : ∀ v ∈ old.drop (lo + (2 * dZ + 1)), v = 0 := by
    intro v hv
    obtain ⟨k, hk⟩ := List.mem_iff_getElem?.mp hv
    rw [List.getElem?_drop] at hk
    have := hcl (lo + (2 * dZ + 1) + k) (Or.inr (by omega))
    rw [List.getD_eq_getElem?_getD, hk] at this
    exact this
  have hsum : w.sum = (rawColumn erf r2 p dZ A).sum := by
    rw [hw', List.sum_append, List.sum_append, hzero _ htake, hzero _ hdrop]
    simp
  have hmap : normColumn ya w = old.take lo ++ column erf r2 p dZ A ya ++ old.drop (lo + (2 * dZ + 1)) := by
    unfold column normColumn
    rw [hsum]
    split
    · exact hw'
    · rw [hw', List.map_append, List.map_append]
      congr 1
      · congr 1
        conv_rhs => rw [← List.map_id (old.take lo)]
        apply List.map_congr_left
        intro v hv
        rw [htake v hv]; simp
      · conv_rhs => rw [← List.map_id (old.drop (lo + (2 * dZ + 1)))]
        apply List.map_congr_left
        intro v hv
        rw [hdrop v hv]; simp
  have hlc : (column erf r2 p dZ A ya).length = 2 * dZ + 1 := by
    unfold column normColumn
    split <;> simp [rawColumn]
  have htl : (old.take lo).length = lo := by rw [List.length_take]; omega
  refine ⟨normColumn ya w, ?_, ?_, ?_, ?_, ?_⟩
  · unfold column2
    rw [hw]; rfl
  · rw [hmap]
    simp only [List.length_append, List.length_drop, hlc, htl]
    omega
  · intro k hk
    rw [hmap, List.getD_eq_getElem?_getD]
    rcases hk with hk | hk
    · rw [List.append_assoc, List.getElem?_append_left (by omega)]
      cases hg : (old.take lo)[k]? with
      | none => rfl
      | some v => exact htake v (List.mem_of_getElem? hg)
    · rw [List.getElem?_append_right (by rw [List.length_append, htl, hlc]; omega)]
      cases hg : (old.drop (lo + (2 * dZ + 1)))[k - (old.take lo ++ column erf r2 p dZ A ya).length]? with
      | none => rfl
      | some v => exact hdrop v (List.mem_of_getElem? hg)
  · rw [hmap, List.sum_append, List.sum_append, hzero _ htake, hzero _ hdrop]
    simp
  · intro j hj
    rw [hmap, List.append_assoc, List.getElem?_append_right (by omega), htl,
      List.getElem?_append_left (by rw [hlc]; omega)]
    congr 1
    omega

example : column2 exErf (7 / 5) ⟨41 / 10, 0, 1, 1⟩ 2 10 (3 / 10) [0, 0, 7, 0, 9, 0, 0, 0] =
    .ok [0, 0, 0, 0, 3 / 10, 0, 0, 0] := by decide +kernel

/-- **C45, what the condition protects from:** if the central charge moves between two calls, entries left from
the previous call take part in the normalisation; the table then no longer sums to the yield over the sampled
window, and its maximum can be smaller than an entry of the sampled distribution, which the rejection sampler
would then clip. -/
theorem C45_moved_window : ∃ (p : Wahl ℚ) (old t : List ℚ), column2 exErf (7 / 5) p 1 10 1 old = .ok t ∧
    t.sum = 1 ∧ ∃ v ∈ column exErf (7 / 5) p 1 10 1, maxZ t < v :=
  ⟨⟨3, 0, 1, 1⟩, [0, 1, 0, 0, 0, 0], [0, 1 / 2, 0, 1 / 2, 0, 0], by decide +kernel, by decide +kernel, 1,
    by decide +kernel, by decide +kernel⟩

/-! ## Charge yields -/

/-- **C46, partial:** the charge yields keep the proportions of the sums over mass. If the last charge of the
range has no yield they add up to the total yield (one, for normalised tables with all windows inside the
range); otherwise they add up to the total divided by the yield of the last charge. -/
theorem C46_charge_partial (rows : List (List K)) :
    (∃ N : K, ∀ j : Nat, (buildYZ rows)[j]? = (rows[j]?).map fun r => r.sum / N) ∧
    ((∀ r, rows.getLast? = some r → r.sum = 0) → (buildYZ rows).sum = (rows.map List.sum).sum) ∧
    ∀ r, rows.getLast? = some r → r.sum ≠ 0 → (buildYZ rows).sum = (rows.map List.sum).sum / r.sum := by
  have hlast : ∀ r, rows.getLast? = some r → yzNorm rows = r.sum := by
    intro r hr
    unfold yzNorm yzRaw
    rw [List.getLast?_map, hr]; rfl
  refine ⟨?_, ?_, ?_⟩
  · by_cases h : yzNorm rows = 0
    · refine ⟨1, fun j => ?_⟩
      unfold buildYZ
      rw [if_pos h]
      unfold yzRaw
      rw [List.getElem?_map]
      simp
    · refine ⟨yzNorm rows, fun j => ?_⟩
      unfold buildYZ
      rw [if_neg h]
      unfold yzRaw
      rw [List.getElem?_map, List.getElem?_map, Option.map_map]
      rfl
  · intro h
    have : yzNorm rows = 0 := by
      cases hr : rows.getLast? with
      | none => unfold yzNorm yzRaw; rw [List.getLast?_map, hr]; rfl
      | some r => rw [hlast r hr]; exact h r hr
    unfold buildYZ
    rw [if_pos this]; rfl
  · intro r hr h0
    unfold buildYZ
    rw [hlast r hr, if_neg h0, sum_map_div]; rfl

example : buildYZ [[1 / 5, 1 / 5], [1 / 10, 3 / 10], [1 / 10, (1 / 10 : ℚ)]] = [2, 2, 1] := by decide +kernel

/-- **C46, refuted:** for a table of non-negative yields of total one the charge yields need not sum to one. -/
theorem C46_charge_refuted : ∃ rows : List (List ℚ), (∀ r ∈ rows, ∀ v ∈ r, 0 ≤ v) ∧ (rows.map List.sum).sum = 1 ∧
    (buildYZ rows).sum = 5 :=
  ⟨[[1 / 5, 1 / 5], [1 / 10, 3 / 10], [1 / 10, 1 / 10]], by decide +kernel, by decide +kernel, by decide +kernel⟩

theorem sum_range_getD (c : List K) (n : Nat) :
    ((List.range n).map fun i : Nat => c.getD i 0).sum = (c.take n).sum := by
  induction n with
  | zero => simp
  | succ n ih =>
      rw [List.range_succ, List.map_append, List.sum_append, ih, List.take_add_one, List.sum_append]
      simp only [List.map_cons, List.map_nil, List.getD_eq_getElem?_getD]
      cases c[n]? <;> simp

theorem clean_sum {c : List K} {lo n : Nat} (h : Clean c lo n) :
    ((List.range n).map fun z : Nat => c.getD (lo + z) 0).sum = c.sum := by
  have h1 : (c.take lo).sum = 0 := by
    rw [← sum_range_getD]
    apply List.sum_eq_zero
    intro x hx
    obtain ⟨i, hi, rfl⟩ := List.mem_map.mp hx
    exact h i (Or.inl (List.mem_range.mp hi))
  have h2 : (c.drop (lo + n)).sum = 0 := by
    apply List.sum_eq_zero
    intro x hx
    obtain ⟨k, hk⟩ := List.mem_iff_getElem?.mp hx
    rw [List.getElem?_drop] at hk
    have := h (lo + n + k) (Or.inr (by omega))
    rw [List.getD_eq_getElem?_getD, hk] at this
    exact this
  have h3 := sum_range_getD c (lo + n)
  rw [List.range_add, List.map_append, List.sum_append, sum_range_getD, h1, List.map_map, zero_add] at h3
  have h4 : (c.take (lo + n)).sum + (c.drop (lo + n)).sum = c.sum := by
    rw [← List.sum_append, List.take_append_drop]
  rw [h2, add_zero, ← h3] at h4
  exact h4

/-- **C46.** The link to the charge tables of all masses (`C45_table`): `cols` holds one table per mass, the
range of charges is `lo .. lo + n - 1`. If all tables vanish outside the range, the total over charges and
masses is the total mass yield, so by `C46_charge_partial` the charge yields sum to one exactly when the last
charge of the range has no yield or all of it. -/
theorem C46_total (cols : List (List K)) (lo n : Nat) (hc : ∀ c ∈ cols, Clean c lo n) :
    (((List.range n).map fun z : Nat => cols.map fun c => c.getD (lo + z) 0).map List.sum).sum =
      (cols.map List.sum).sum := by
  rw [List.map_map]
  induction cols with
  | nil => simp [Function.comp_def]
  | cons c cols ih =>
      have := ih fun c hc' => hc c (List.mem_cons_of_mem _ hc')
      simp only [Function.comp_def, List.map_cons, List.sum_cons] at this ⊢
      rw [List.sum_map_add, this, clean_sum (hc c List.mem_cons_self)]

/-- Two masses with charges 1 and 2: the charge yields are those of a distribution when charge 3 is in the range. -/
example : buildYZ ((List.range 3).map fun z : Nat => [[0, 1 / 4, 1 / 4, 0], [0, 1 / 8, 3 / 8, (0 : ℚ)]].map fun c =>
    c.getD (1 + z) 0) = [3 / 8, 5 / 8, 0] := by decide +kernel

/-! ## Average kinetic energy -/

/-- **C49.** After the rescaling, the yield-weighted sum of the average kinetic energies returned for the
masses of the range is exactly the prescribed average. The table is the one built from any expansion
coefficients; the mass range and the yields are arbitrary. -/
theorem C49_average (numa : Nat) (d : K) (acn amx : Int) (x0 : K) (cs av ys : List K) (lo hi : Int) (target r : K)
    (hacn : acn < numa) (ht : massTable numa d acn amx x0 cs = .ok av) (hr : rescale av ys lo hi target = .ok r) :
    ∃ v : Nat → K, (∀ j : Nat, j < (hi - lo + 1).toNat → avTKE av acn r (lo + j) = .ok (v j)) ∧
      ((List.range (hi - lo + 1).toNat).map fun j : Nat => ys.getD (lo + j).toNat 0 * v j).sum = target := by
  obtain ⟨hsym, hlen⟩ := massTable_ok ht
  unfold rescale at hr
  rw [Res.bind_iff] at hr
  obtain ⟨s, hs, hr⟩ := hr
  obtain ⟨hread, hsum⟩ := tkeSum_ok hs
  split at hr
  · cases hr
  rename_i hs0
  cases hr
  refine ⟨fun j => target / s * av.getD (lo + j).toNat 0, ?_, ?_⟩
  · intro j hj
    obtain ⟨t, y, h1, _⟩ := hread j hj
    have h1' := readAt_ok_iff.mp h1
    have hb : (lo + (j : Int)).toNat < av.length := (List.getElem?_eq_some_iff.mp h1'.2).1
    have hv : av.getD (lo + j).toNat 0 = t := by rw [List.getD_eq_getElem?_getD, h1'.2]; rfl
    have hh : readAt av (heavyIdx acn (lo + j)) = .ok t := by
      unfold heavyIdx
      split
      · exact h1
      · rename_i hlt
        rw [readAt_ok_iff]
        refine ⟨by omega, ?_⟩
        rw [← hsym (lo + (j : Int)).toNat (acn - (lo + j)).toNat (by omega) hb (by omega)]
        exact h1'.2
    unfold avTKE
    rw [hh]
    simp only [Res.bind]
    rw [hv]
  · rw [zero_add] at hsum
    have : ((List.range (hi - lo + 1).toNat).map fun j : Nat => ys.getD (lo + j).toNat 0 *
        (target / s * av.getD (lo + j).toNat 0)) = (List.range (hi - lo + 1).toNat).map fun j : Nat =>
        target / s * (av.getD (lo + j).toNat 0 * ys.getD (lo + j).toNat 0) := by
      apply List.map_congr_left
      intro j _
      ring
    rw [this, List.sum_map_mul_left, ← hsum]
    field_simp

/-- Masses 2..6 of a nucleus of mass 8, heavy range 4..7. -/
example : ∃ av r, massTable 10 (1 : ℚ) 8 7 4 [10, -1] = .ok av ∧ rescale av [0, 0, 1 / 10, 1 / 10, 6 / 10, 1 / 10, 1 / 10] 2 6 11 = .ok r ∧
    (avTKE av 8 r 2 = avTKE av 8 r 6) ∧ avTKE av 8 r 2 ≠ avTKE av 8 r 3 :=
  ⟨[1, 7, 8, 9, 10, 9, 8, 7, 1, 1], 55 / 47, by decide +kernel, by decide +kernel, by decide +kernel, by decide +kernel⟩

/-- **C49.** The same factor is applied to every mass and complementary masses have the same average. -/
theorem C49_symmetric (numa : Nat) (d : K) (acn amx : Int) (x0 : K) (cs av : List K) (r : K) (hacn : acn < numa)
    (ht : massTable numa d acn amx x0 cs = .ok av) (A : Int) (h0 : 0 ≤ A) (h1 : A ≤ acn) :
    ∃ v, avTKE av acn r A = .ok v ∧ avTKE av acn r (acn - A) = .ok v := by
  obtain ⟨hsym, hlen⟩ := massTable_ok ht
  have hb : ∀ B : Int, 0 ≤ B → B ≤ acn → readAt av (heavyIdx acn B) = readAt av B := by
    intro B hB hB'
    unfold heavyIdx
    split
    · rfl
    · have hs := hsym (acn - B).toNat B.toNat (by omega) (by omega) (by omega)
      have hB1 : B.toNat < av.length := by omega
      rw [List.getElem?_eq_getElem hB1] at hs
      rw [readAt_ok_iff.mpr ⟨by omega, hs⟩, readAt_ok_iff.mpr ⟨hB, List.getElem?_eq_getElem hB1⟩]
  have hA : A.toNat < av.length := by omega
  have e : readAt av A = .ok av[A.toNat] := readAt_ok_iff.mpr ⟨h0, by simp [hA]⟩
  have e' : readAt av (acn - A) = .ok av[A.toNat] := by
    rw [readAt_ok_iff]
    refine ⟨by omega, ?_⟩
    rw [← hsym A.toNat (acn - A).toNat (by omega) hA (by omega)]
    simp [hA]
  refine ⟨r * av[A.toNat], ?_, ?_⟩
  · unfold avTKE; rw [hb A h0 h1, e]; rfl
  · unfold avTKE; rw [hb (acn - A) (by omega) (by omega), e']; rfl

example : avTKE [1, 7, 8, 9, 10, 9, 8, 7, 1, (1 : ℚ)] 8 2 3 = .ok 18 := by decide +kernel

/-- **C49, finding:** an upper mass of the expansion above the compound mass makes the table be written at a
negative index. -/
theorem C49_table_overrun (numa : Nat) (d : K) (acn amx : Int) (x0 : K) (cs : List K) (h0 : 0 ≤ acn) (h : acn < amx) :
    massTable numa d acn amx x0 cs = .ub := by
  have key : ∀ (m : Nat) (a : Int) (t : List K), acn + 1 < a + m → a ≤ acn + 1 → 0 < m →
      fillSym acn x0 cs m a t = .ub := by
    intro m
    induction m with
    | zero => intro a t _ _ h3; omega
    | succ m ih =>
        intro a t h1 h2 _
        simp only [fillSym]
        unfold writeAt
        by_cases hw : 0 ≤ a ∧ a.toNat < t.length
        · rw [if_pos hw]
          simp only [Res.bind]
          by_cases hx : 0 ≤ acn - a ∧ (acn - a).toNat < (t.set a.toNat (poly cs ((a : K) - x0))).length
          · rw [if_pos hx]
            exact ih (a + 1) _ (by push_cast at h1; omega) (by omega) (by push_cast at h1; omega)
          · rw [if_neg hx]
        · rw [if_neg hw]; rfl
  unfold massTable
  exact key _ _ _ (by omega) (by omega) (by omega)

example : massTable 10 (1 : ℚ) 8 9 4 [10, -1] = .ub := by decide +kernel

end CGMF.Props

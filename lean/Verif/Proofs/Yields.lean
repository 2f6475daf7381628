import Verif.Model.Yields
import Verif.Proofs.Prefission
import Verif.Tactics
import Mathlib.Algebra.Order.BigOperators.Group.List
import Mathlib.Algebra.BigOperators.Ring.List

/-!
# Lemmas about the yields
-/

namespace CGMF.Yld

open CGMF CGMF.Pre

set_option linter.unusedSectionVars false

variable {K : Type} [Field K] [LinearOrder K] [IsStrictOrderedRing K] [FloorRing K]

theorem gaussian_flip (exp : K → K) (c d x : K) (m : Mode K) :
    gaussian exp c (d - x) { m with mu := d - m.mu } = gaussian exp c x m := by
  unfold gaussian
  have : -(1 / 2) * (d - x - (d - m.mu)) * (d - x - (d - m.mu)) / m.sig / m.sig =
      -(1 / 2) * (x - m.mu) * (x - m.mu) / m.sig / m.sig := by ring_nf
  rw [this]

theorem modeSum_flip (exp : K → K) (c : K) (acn : Int) (m0 : Mode K) (h0 : m0.mu = (acn : K) / 2) (ms : List (Mode K))
    (x : K) : modeSum exp c acn m0 ms ((acn : K) - x) = modeSum exp c acn m0 ms x := by
  unfold modeSum
  congr 1
  · have h := gaussian_flip exp c (acn : K) x m0
    have e : (acn : K) - m0.mu = m0.mu := by rw [h0]; ring
    rw [e] at h
    exact h
  · congr 1
    apply List.map_congr_left
    intro m _
    have h1 := gaussian_flip exp c (acn : K) x m
    have h2 := gaussian_flip exp c (acn : K) x { m with mu := (acn : K) - m.mu }
    simp only [sub_sub_cancel] at h2
    have h2' : gaussian exp c ((acn : K) - x) m = gaussian exp c x { m with mu := (acn : K) - m.mu } := h2
    rw [h1, h2', add_comm]

theorem yieldA_symm (exp : K → K) (c cut : K) (acn : Int) (m0 : Mode K) (h0 : m0.mu = (acn : K) / 2)
    (ms : List (Mode K)) (A : Int) :
    yieldA exp c cut acn m0 ms (acn - A) = yieldA exp c cut acn m0 ms A := by
  have key : ∀ a b : Int, a + b = acn → modeSum exp c acn m0 ms (a : K) = modeSum exp c acn m0 ms (b : K) := by
    intro a b h
    rw [← modeSum_flip exp c acn m0 h0 ms (b : K)]
    congr 1
    rw [← h]; push_cast; ring
  unfold yieldA
  have e : modeSum exp c acn m0 ms (((if acn / 2 ≤ acn - A then acn - A else acn - (acn - A) : Int)) : K) =
      modeSum exp c acn m0 ms (((if acn / 2 ≤ A then A else acn - A : Int)) : K) := by
    by_cases h1 : acn / 2 ≤ acn - A <;> by_cases h2 : acn / 2 ≤ A
    · rw [if_pos h1, if_pos h2]; exact key _ _ (by ring)
    · rw [if_pos h1, if_neg h2]
    · rw [if_neg h1, if_pos h2, sub_sub_cancel]
    · rw [if_neg h1, if_neg h2]; exact key _ _ (by omega)
  simp only [e]

theorem yieldA_nonneg (exp : K → K) (c cut : K) (hc : 0 ≤ cut) (acn : Int) (m0 : Mode K) (ms : List (Mode K)) (A : Int) :
    0 ≤ yieldA exp c cut acn m0 ms A := by
  unfold yieldA
  simp only []
  generalize modeSum exp c acn m0 ms _ = s
  split
  · rename_i h; exact le_of_lt (lt_of_le_of_lt hc h)
  · exact le_refl _

theorem modes_ok {exp : K → K} {t : Coef K} {acn shift : Int} {e : K} {m0 : Mode K} {ms : List (Mode K)}
    (h : modes exp t acn shift e = .ok (m0, ms)) :
    m0.mu = (acn : K) / 2 ∧ ∃ m1 m2, ms = [m1, m2] ∧ m0.w + 2 * m1.w + 2 * m2.w = 2 ∧
      (∃ sa sb, readAt t.siga 0 = .ok sa ∧ readAt t.sigb 1 = .ok sb ∧ m0.sig = sa + sb * e) := by
  unfold modes at h
  simp only [] at h
  rw [Res.bind_iff] at h
  obtain ⟨m1, _, h⟩ := h
  rw [Res.bind_iff] at h
  obtain ⟨m2, _, h⟩ := h
  rw [Res.bind_iff] at h
  obtain ⟨sa, hsa, h⟩ := h
  rw [Res.bind_iff] at h
  obtain ⟨sb, hsb, h⟩ := h
  cases h
  exact ⟨rfl, m1, m2, rfl, by simp only []; ring, sa, sb, hsa, hsb, rfl⟩

/-! ## Range and normalisation -/

theorem amin_spec {ys : List K} (hp : ∃ (a : Nat) (v : K), ys[a]? = some v ∧ 0 < v) :
    ∃ (a : Nat) (v : K), amin ys = a ∧ ys[a]? = some v ∧ 0 < v ∧
      ∀ (b : Nat) (w : K), ys[b]? = some w → 0 < w → a ≤ b := by
  unfold amin
  cases h : ys.findIdx? (fun v => decide (0 < v)) with
  | none =>
      rw [List.findIdx?_eq_none_iff] at h
      obtain ⟨a, v, ha, hv⟩ := hp
      have := h v (List.mem_of_getElem? ha)
      simp at this
      exact absurd hv (not_lt.mpr this)
  | some i =>
      rw [List.findIdx?_eq_some_iff_getElem] at h
      obtain ⟨hi, hpi, hlt⟩ := h
      refine ⟨i, ys[i], rfl, by simp [hi], by simpa using hpi, ?_⟩
      intro b w hb hw
      by_contra hc
      push Not at hc
      have := hlt b hc
      obtain ⟨hb1, hb2⟩ := List.getElem?_eq_some_iff.mp hb
      rw [hb2] at this
      simp at this
      exact absurd hw (not_lt.mpr this)

theorem amax_spec {ys : List K} (hp : ∃ (a : Nat) (v : K), ys[a]? = some v ∧ 0 < v) :
    ∃ (a : Nat) (v : K), amax ys = a ∧ ys[a]? = some v ∧ 0 < v ∧
      ∀ (b : Nat) (w : K), ys[b]? = some w → 0 < w → b ≤ a := by
  unfold amax
  cases h : (List.range ys.length).reverse.find? (fun i : Nat => decide (0 < ys.getD i 0)) with
  | none =>
      rw [List.find?_eq_none] at h
      obtain ⟨a, v, ha, hv⟩ := hp
      obtain ⟨hb1, hb2⟩ := List.getElem?_eq_some_iff.mp ha
      have := h a (by simp [hb1])
      simp [hb1, hb2] at this
      exact absurd hv (not_lt.mpr this)
  | some i =>
      have hrange : ∀ n : Nat, ∀ i, (List.range n).reverse.find? (fun i : Nat => decide (0 < ys.getD i 0)) = some i →
          i < n ∧ 0 < ys.getD i 0 ∧ ∀ b, b < n → 0 < ys.getD b 0 → b ≤ i := by
        intro n
        induction n with
        | zero => intro i h; simp at h
        | succ n ih =>
            intro i h
            rw [List.range_succ, List.reverse_append] at h
            simp only [List.reverse_cons, List.reverse_nil, List.nil_append, List.singleton_append,
              List.find?_cons] at h
            by_cases hn : 0 < ys.getD n 0
            · rw [decide_eq_true hn] at h
              simp only [Option.some.injEq] at h
              subst h
              exact ⟨by omega, hn, fun b hb _ => by omega⟩
            · rw [decide_eq_false hn] at h
              obtain ⟨a1, a2, a3⟩ := ih i h
              refine ⟨by omega, a2, fun b hb hb0 => ?_⟩
              by_cases hbn : b = n
              · subst hbn; exact absurd hb0 hn
              · exact a3 b (by omega) hb0
      obtain ⟨h1, h2, h3⟩ := hrange _ i h
      refine ⟨i, ys[i], rfl, by simp [h1], by simpa [h1] using h2, ?_⟩
      intro b w hb hw
      obtain ⟨hb1, hb2⟩ := List.getElem?_eq_some_iff.mp hb
      exact h3 b hb1 (by simpa [hb1, hb2] using hw)

theorem getD_out {ys : List K} (h0 : ∀ y ∈ ys, 0 ≤ y) (i : Nat)
    (hi : ¬inRange (amin ys) (amax ys) i = true) : ys.getD i 0 = 0 := by
  cases hg : ys[i]? with
  | none => rw [List.getD_eq_getElem?_getD, hg]; rfl
  | some v =>
      rw [List.getD_eq_getElem?_getD, hg]
      simp only [Option.getD_some]
      by_contra hv
      have hv0 : 0 < v := lt_of_le_of_ne (h0 v (List.mem_of_getElem? hg)) (Ne.symm hv)
      obtain ⟨a, _, e1, _, _, l1⟩ := amin_spec ⟨i, v, hg, hv0⟩
      obtain ⟨b, _, e2, _, _, l2⟩ := amax_spec ⟨i, v, hg, hv0⟩
      apply hi
      unfold inRange
      rw [e1, e2]
      have := l1 i v hg hv0
      have := l2 i v hg hv0
      simp; omega

theorem range_getD (ys : List K) : ((List.range ys.length).map fun i : Nat => ys.getD i 0) = ys := by
  apply List.ext_getElem
  · simp
  · intro i h1 h2
    simp [h2]

theorem sumIn_all {ys : List K} (h0 : ∀ y ∈ ys, 0 ≤ y) : sumIn ys (amin ys) (amax ys) = ys.sum := by
  unfold sumIn
  conv_rhs => rw [← range_getD ys]
  congr 1
  apply List.map_congr_left
  intro i _
  by_cases h : inRange (amin ys) (amax ys) i = true
  · rw [if_pos h]
  · rw [if_neg h, getD_out h0 i h]

theorem normYields_all {ys : List K} (h0 : ∀ y ∈ ys, 0 ≤ y) : normYields ys = ys.map (· / ys.sum) := by
  unfold normYields
  rw [sumIn_all h0]
  conv_rhs => rw [← range_getD ys]
  rw [List.map_map]
  apply List.map_congr_left
  intro i _
  by_cases h : inRange (amin ys) (amax ys) i = true
  · rw [if_pos h, range_getD]; rfl
  · rw [if_neg h, getD_out h0 i h]
    simp only [Function.comp]
    rw [getD_out h0 i h, zero_div]

theorem sum_pos_of {ys : List K} (h0 : ∀ y ∈ ys, 0 ≤ y) (hp : ∃ y ∈ ys, 0 < y) : 0 < ys.sum := by
  induction ys with
  | nil => obtain ⟨y, hy, _⟩ := hp; simp at hy
  | cons a l ih =>
      rw [List.sum_cons]
      have hl : 0 ≤ l.sum := List.sum_nonneg fun y hy => h0 y (List.mem_cons_of_mem _ hy)
      have ha := h0 a List.mem_cons_self
      obtain ⟨y, hy, hy0⟩ := hp
      rcases List.mem_cons.mp hy with e | hy
      · subst e; linarith
      · have := ih (fun y hy => h0 y (List.mem_cons_of_mem _ hy)) ⟨y, hy, hy0⟩
        linarith

/-! ## Charge -/

theorem oddEven_eq (fz fn : K) (z i : Int) :
    oddEven fz fn z i = (if z % 2 = 0 then fz else fz⁻¹) * (if (i - z) % 2 = 0 then fn else fn⁻¹) := by
  unfold oddEven
  rcases Int.emod_two_eq_zero_or_one z with hz | hz <;> rcases Int.emod_two_eq_zero_or_one i with hi | hi
  · rw [if_pos hz, if_pos hi, if_pos hz, if_pos (by omega)]
  · rw [if_pos hz, if_neg (by omega), if_pos hz, if_neg (by omega), div_eq_mul_inv]
  · rw [if_neg (by omega), if_neg (by omega), if_neg (by omega), if_neg (by omega)]
    rw [one_div, mul_inv]
  · rw [if_neg (by omega), if_pos (by omega), if_neg (by omega), if_pos (by omega)]
    rw [div_eq_mul_inv, mul_comm]

theorem oddEven_pos {fz fn : K} (hz : 0 < fz) (hn : 0 < fn) (z i : Int) : 0 < oddEven fz fn z i := by
  rw [oddEven_eq]
  apply mul_pos
  · split
    · exact hz
    · exact inv_pos.mpr hz
  · split
    · exact hn
    · exact inv_pos.mpr hn

theorem rawZA_nonneg {erf : K → K} (herf : Monotone erf) {r2 : K} (hr : 0 < r2) {p : Wahl K}
    (hz : 0 < p.fz) (hn : 0 < p.fn) (dZ i : Int) (j : Nat) : 0 ≤ rawZA erf r2 p dZ i j := by
  unfold rawZA
  simp only []
  split
  · rename_i hc
    apply mul_nonneg
    · have := oddEven_pos hz hn (p.iz + j - dZ) i
      positivity
    · rw [sub_nonneg]
      apply herf
      have : 0 < r2 * p.c := mul_pos hr hc
      gcongr
      linarith
  · split <;> norm_num

theorem normColumn_sum {ya : K} {col : List K} (h : col.sum ≠ 0) : (normColumn ya col).sum = ya := by
  unfold normColumn
  rw [if_neg h]
  have : (col.map fun v => v * ya / col.sum) = (col.map (· * (ya / col.sum))) := by
    apply List.map_congr_left; intro v _; ring
  rw [this, List.sum_map_mul_right]
  simp only [List.map_id']
  field_simp

theorem normColumn_nonneg {ya : K} (hy : 0 ≤ ya) {col : List K} (h : ∀ v ∈ col, 0 ≤ v) :
    ∀ v ∈ normColumn ya col, 0 ≤ v := by
  unfold normColumn
  split
  · exact h
  · intro v hv
    rw [List.mem_map] at hv
    obtain ⟨w, hw, rfl⟩ := hv
    have := List.sum_nonneg h
    have := h w hw
    positivity

/-! ## Writes of a window -/

theorem writeAt_ok_iff {α : Type} {xs : List α} {i : Int} {v : α} {ys : List α} :
    writeAt xs i v = .ok ys ↔ 0 ≤ i ∧ i.toNat < xs.length ∧ ys = xs.set i.toNat v := by
  unfold writeAt
  split
  · rename_i h
    constructor
    · intro e; cases e; exact ⟨h.1, h.2, rfl⟩
    · rintro ⟨_, _, rfl⟩; rfl
  · rename_i h
    constructor
    · intro e; cases e
    · rintro ⟨a, b, _⟩; exact absurd ⟨a, b⟩ h

theorem putWindow_ok {vs : List K} {z : Int} {t t' : List K} (h : putWindow vs z t = .ok t') :
    t' = t.take z.toNat ++ vs ++ t.drop (z.toNat + vs.length) ∧
      (vs ≠ [] → 0 ≤ z ∧ z.toNat + vs.length ≤ t.length) := by
  induction vs generalizing z t with
  | nil => cases h; simp
  | cons v vs ih =>
      simp only [putWindow] at h
      rw [Res.bind_iff] at h
      obtain ⟨t1, h1, h⟩ := h
      rw [writeAt_ok_iff] at h1
      obtain ⟨hz, hlt, rfl⟩ := h1
      obtain ⟨e, hb⟩ := ih h
      have hn : (z + 1).toNat = z.toNat + 1 := by omega
      rw [hn] at e hb
      constructor
      · rw [e, List.take_set, List.drop_set]
        rw [if_pos (by omega)]
        have : (List.take (z.toNat + 1) t).set z.toNat v = List.take z.toNat t ++ [v] := by
          rw [List.take_add_one, List.set_append]
          simp [List.length_take, Nat.min_eq_left (le_of_lt hlt), hlt]
        rw [this]
        simp only [List.length_cons, List.append_assoc, List.singleton_append]
        congr 3
        omega
      · intro _
        refine ⟨hz, ?_⟩
        cases vs with
        | nil => simp; omega
        | cons w ws =>
            have := (hb (by simp)).2
            simp only [List.length_set, List.length_cons] at this ⊢
            omega

theorem putWindow_run (vs : List K) (z : Int) (t : List K) (h0 : 0 ≤ z) (h : z.toNat + vs.length ≤ t.length) :
    ∃ t', putWindow vs z t = .ok t' := by
  induction vs generalizing z t with
  | nil => exact ⟨t, rfl⟩
  | cons v vs ih =>
      simp only [List.length_cons] at h
      have hw : writeAt t z v = .ok (t.set z.toNat v) := writeAt_ok_iff.mpr ⟨h0, by omega, rfl⟩
      obtain ⟨t', e⟩ := ih (z + 1) (t.set z.toNat v) (by omega) (by rw [List.length_set]; omega)
      exact ⟨t', by simp only [putWindow]; rw [hw]; exact e⟩

/-! ## Mass tables of the kinetic energy -/

/-- The table takes the same value at complementary masses. -/
def SymTab (acn : Int) (t : List K) : Prop :=
  ∀ (a b : Nat), (a : Int) + b = acn → a < t.length → b < t.length → t[a]? = t[b]?

theorem set2_sym {acn : Int} {t : List K} (h : SymTab acn t) {a b : Nat} (hab : (a : Int) + b = acn) (v : K) :
    SymTab acn ((t.set a v).set b v) := by
  intro x y hxy hx hy
  simp only [List.length_set] at hx hy
  rw [List.getElem?_set, List.getElem?_set, List.getElem?_set, List.getElem?_set]
  simp only [List.length_set]
  by_cases h1 : b = x
  · have h2 : a = y := by omega
    subst h1; subst h2
    simp [hx, hy]
  · have h2 : a ≠ y := by omega
    by_cases h3 : a = x
    · have h4 : b = y := by omega
      subst h3; subst h4
      rw [if_neg h1, if_pos rfl, if_pos hx, if_pos rfl, if_pos hy]
    · have h4 : b ≠ y := by omega
      rw [if_neg h1, if_neg h3, if_neg h4, if_neg h2]
      exact h x y hxy hx hy

theorem fillSym_ok {acn : Int} {x0 : K} {cs : List K} {m : Nat} {a : Int} {t t' : List K}
    (h : fillSym acn x0 cs m a t = .ok t') (hs : SymTab acn t) : SymTab acn t' ∧ t'.length = t.length := by
  induction m generalizing a t with
  | zero => cases h; exact ⟨hs, rfl⟩
  | succ m ih =>
      simp only [fillSym] at h
      rw [Res.bind_iff] at h
      obtain ⟨t1, h1, h⟩ := h
      rw [Res.bind_iff] at h
      obtain ⟨t2, h2, h⟩ := h
      rw [writeAt_ok_iff] at h1 h2
      obtain ⟨a1, a2, rfl⟩ := h1
      obtain ⟨b1, b2, rfl⟩ := h2
      obtain ⟨e1, e2⟩ := ih h (set2_sym hs (by omega) _)
      exact ⟨e1, by rw [e2]; simp⟩

theorem massTable_ok {numa : Nat} {d : K} {acn amx : Int} {x0 : K} {cs t : List K}
    (h : massTable numa d acn amx x0 cs = .ok t) : SymTab acn t ∧ t.length = numa := by
  unfold massTable at h
  obtain ⟨a, b⟩ := fillSym_ok h (by
    intro x y _ hx hy
    simp only [List.length_replicate] at hx hy
    simp [hx, hy])
  exact ⟨a, by rw [b]; simp⟩

theorem tkeSum_ok {av ys : List K} {m : Nat} {a : Int} {s r : K} (h : tkeSum av ys m a s = .ok r) :
    (∀ j : Nat, j < m → ∃ t y, readAt av (a + j) = .ok t ∧ readAt ys (a + j) = .ok y) ∧
      r = s + ((List.range m).map fun j : Nat => av.getD (a + j).toNat 0 * ys.getD (a + j).toNat 0).sum := by
  induction m generalizing a s with
  | zero => cases h; exact ⟨fun j hj => by omega, by simp⟩
  | succ m ih =>
      simp only [tkeSum] at h
      rw [Res.bind_iff] at h
      obtain ⟨t, ht, h⟩ := h
      rw [Res.bind_iff] at h
      obtain ⟨y, hy, h⟩ := h
      obtain ⟨hr, e⟩ := ih h
      constructor
      · intro j hj
        cases j with
        | zero => exact ⟨t, y, by simpa using ht, by simpa using hy⟩
        | succ j =>
            obtain ⟨t', y', e1, e2⟩ := hr j (by omega)
            have : a + ((j + 1 : Nat) : Int) = a + 1 + j := by push_cast; ring
            rw [this]
            exact ⟨t', y', e1, e2⟩
      · rw [e, List.range_succ_eq_map, List.map_cons, List.sum_cons, List.map_map]
        rw [readAt_ok_iff] at ht hy
        have e0 : av.getD (a + ((0 : Nat) : Int)).toNat 0 = t := by
          rw [List.getD_eq_getElem?_getD]; simp [ht.2]
        have e1 : ys.getD (a + ((0 : Nat) : Int)).toNat 0 = y := by
          rw [List.getD_eq_getElem?_getD]; simp [hy.2]
        rw [e0, e1, add_assoc]
        congr 3
        apply List.map_congr_left
        intro j _
        simp only [Function.comp]
        have : a + ((j + 1 : Nat) : Int) = a + 1 + j := by push_cast; ring
        rw [Nat.succ_eq_add_one, this]

end CGMF.Yld

import Verif.Proofs.HF
import Verif.Spec.Select

/-! # Lemmas about selection rules, sampling and forced transitions -/

set_option linter.unusedSectionVars false

namespace CGMF.HF

open CGMF.Grid CGMF.MC

variable {K : Type} [Field K] [LinearOrder K] [IsStrictOrderedRing K]

theorem popOf_map_unique {L : List Int} (hL : L.Nodup) {g : Int → Cell} {v : Int → K} {c : Cell} {j1 : Int}
    (h : ∀ j ∈ L, g j = c ↔ j = j1) :
    popOf (L.map fun j => (g j, v j)) c = if j1 ∈ L then v j1 else 0 := by
  induction L with
  | nil => rfl
  | cons a L ih =>
    rw [List.map_cons, popOf_cons]
    have hn := List.nodup_cons.mp hL
    have ih' := ih hn.2 (fun j hj => h j (List.mem_cons_of_mem _ hj))
    rw [ih']
    have ha := h a List.mem_cons_self
    by_cases e : a = j1
    · subst e
      rw [if_pos (ha.mpr rfl), if_neg hn.1, if_pos List.mem_cons_self, add_zero]
    · rw [if_neg (fun hc => e (ha.mp hc)), zero_add]
      have : (j1 ∈ a :: L) ↔ j1 ∈ L := by
        rw [List.mem_cons]
        constructor
        · rintro (h | h)
          · exact absurd h.symm e
          · exact h
        · exact Or.inr
      simp only [this]

/-- The spin of a continuum cell. -/
theorem idx_spin {i j1 idx : Int} (hi : i = 0 ∨ i = 1) (h0 : 0 ≤ j1) (hp : (j1 - i) % 2 = 0) :
    (j1 - i).tdiv 2 = idx ↔ j1 = 2 * idx + i := by
  rw [tdiv2 (by omega)]
  omega

theorem parity_even {p q : Int} (hp : p = 1 ∨ p = -1) (hq : q = 1 ∨ q = -1) (even : Bool) :
    decide (q * p = 1) = even ↔ (if even then (1 : Int) else -1) = q * p := by
  rcases hp with rfl | rfl <;> rcases hq with rfl | rfl <;> cases even <;> simp

theorem tc2c_exact {maxJ : Nat} {i p0 jdx : Int} (hi : i = 0 ∨ i = 1) (hp : p0 = 1 ∨ p0 = -1) (mu : Mult)
    (k : Nat) (tg bw : K) (dens : Nat → Int → Bool → K) (k' : Nat) (idx : Int) (even : Bool)
    (hidx : idx < maxJ) (h0 : 0 ≤ idx) :
    popOf (tc2c maxJ i mu k p0 (2 * jdx + i) tg bw dens) (.cont k' idx even) =
      if k = k' ∧ PhotonBy mu (2 * jdx + i) p0 (2 * idx + i) (if even then 1 else -1) then
        tg * (dens k idx even * bw) else 0 := by
  unfold tc2c
  simp only
  have hq : mu.pg = 1 ∨ mu.pg = -1 := by cases mu <;> simp [Mult.pg]
  by_cases hk : k = k'
  · subst hk
    by_cases he : decide (mu.pg * p0 = 1) = even
    · rw [popOf_map_unique (j1 := 2 * idx + i) ((steps2_nodup _ _).filter _)]
      · have hidx2 : (2 * idx + i - i).tdiv 2 = idx := by
          rw [tdiv2 (by omega)]; omega
        rw [hidx2, he]
        have hpar := (parity_even hp hq even).mp he
        apply if_congr _ rfl rfl
        rw [List.mem_filter, mem_steps2]
        simp only [true_and]
        unfold PhotonBy Triangle
        have hl : (mu.l : Int) = 1 ∨ (mu.l : Int) = 2 := by cases mu <;> simp [Mult.l]
        have hiff : ((∃ i1 : Nat, 2 * idx + i = |2 * jdx + i - 2 * (mu.l : Int)| + 2 * i1 ∧
            2 * idx + i ≤ min (2 * jdx + i + 2 * (mu.l : Int)) (2 * (maxJ : Int) - 1))) ↔
            (|2 * jdx + i - 2 * (mu.l : Int)| ≤ 2 * idx + i ∧ 2 * idx + i ≤ 2 * jdx + i + 2 * (mu.l : Int)) := by
          constructor
          · rintro ⟨i1, h1, h2⟩
            have := le_min_iff.mp h2
            omega
          · rintro ⟨h1, h2⟩
            have e2 : (|2 * jdx + i - 2 * (mu.l : Int)| - (2 * jdx + i - 2 * (mu.l : Int))) % 2 = 0 := by
              rcases abs_cases (2 * jdx + i - 2 * (mu.l : Int)) with ⟨h, -⟩ | ⟨h, -⟩ <;> rw [h] <;> omega
            refine ⟨((2 * idx + i - |2 * jdx + i - 2 * (mu.l : Int)|) / 2).toNat, ?_, ?_⟩
            · rw [Int.toNat_of_nonneg (by omega)]
              omega
            · rw [le_min_iff]; omega
        rw [hiff]
        cases mu <;> simp only [Mult.l, Mult.pg] at * <;> rw [hpar] <;> simp <;> rw [imp_iff_not_or, and_comm]
      · intro j hj
        rw [List.mem_filter, mem_steps2] at hj
        obtain ⟨⟨i1, h1, h2⟩, -⟩ := hj
        have e2 : (|2 * jdx + i - 2 * (mu.l : Int)| - (2 * jdx + i - 2 * (mu.l : Int))) % 2 = 0 := by
          rcases abs_cases (2 * jdx + i - 2 * (mu.l : Int)) with ⟨h, -⟩ | ⟨h, -⟩ <;> rw [h] <;> omega
        have := abs_nonneg (2 * jdx + i - 2 * (mu.l : Int))
        rw [← idx_spin hi (j1 := j) (by omega) (by omega)]
        simp [he]
    · rw [popOf_eq_zero, if_neg]
      · rintro ⟨-, -, h⟩
        apply he
        rw [parity_even hp hq]
        cases mu <;> simp only [Mult.pg] <;> rw [h.2] <;> ring
      · intro t ht
        obtain ⟨j, -, rfl⟩ := List.mem_map.mp ht
        simp only [ne_eq, Cell.cont.injEq, not_and]
        intro _ _; exact he
  · rw [popOf_eq_zero, if_neg (fun h => hk h.1)]
    intro t ht
    obtain ⟨j, -, rfl⟩ := List.mem_map.mp ht
    simp only [ne_eq, Cell.cont.injEq, not_and]
    intro h; exact absurd h hk

theorem tc2d_cont (mu : Mult) (i : Nat) (lev : Level K) (p0 j0 : Int) (tg : K) (k : Nat) (idx : Int) (e : Bool) :
    popOf (tc2d mu i lev p0 j0 tg) (.cont k idx e) = 0 := by
  apply popOf_eq_zero
  intro t ht
  obtain ⟨-, -, -, -, rfl⟩ := mem_tc2d.mp ht
  simp

theorem tc2d_exact (mu : Mult) (i : Nat) (lev : Level K) {p0 j0 : Int} (hp : p0 = 1 ∨ p0 = -1)
    (hl : (lev.spin2 - j0) % 2 = 0) (tg : K) (i' : Nat) :
    popOf (tc2d mu i lev p0 j0 tg) (.disc i') =
      if i = i' ∧ PhotonBy mu j0 p0 lev.spin2 lev.parity then tg else 0 := by
  by_cases h : (.disc i', tg) ∈ tc2d mu i lev p0 j0 tg
  · obtain ⟨h1, h2, h3, h4, h5⟩ := mem_tc2d.mp h
    have hi : i = i' := by
      have := congrArg Prod.fst h5
      simp only [Cell.disc.injEq] at this
      exact this.symm
    subst hi
    have : tc2d mu i lev p0 j0 tg = [(.disc i, tg)] := by
      unfold tc2d
      rw [if_neg h1, if_pos ⟨h2, h3⟩, if_pos h4]
    rw [this, popOf_cons, popOf_nil, if_pos rfl, add_zero, if_pos]
    refine ⟨rfl, ?_, ?_⟩
    · rintro ⟨a, b⟩
      exact h1 ⟨a, by rw [b]; rfl⟩
    · have h6 : lev.parity = mu.pg * p0 := by
        rw [h4]
        rcases hp with rfl | rfl <;> ring
      cases mu <;> simp only [Mult.l, Mult.pg] at h2 h3 h6 <;>
        exact ⟨⟨by simpa using h2, by simpa using h3⟩, by rw [h6]; ring⟩
  · rw [if_neg]
    · apply popOf_eq_zero
      intro t ht e
      apply h
      obtain ⟨-, -, -, -, h5⟩ := mem_tc2d.mp ht
      have : t = (.disc i', tg) := by
        rw [h5] at e ⊢
        simp only [Cell.disc.injEq] at e
        rw [e]
      rw [← this]; exact ht
    · rintro ⟨rfl, h1, h2⟩
      apply h
      rw [mem_tc2d]
      refine ⟨?_, ?_, ?_, ?_, rfl⟩
      · rintro ⟨a, b⟩
        subst a
        apply h1
        refine ⟨rfl, ?_⟩
        have h3 : 0 ≤ lev.spin2 := by
          have := abs_nonneg (0 - 2 : Int)
          cases mu <;> exact le_trans (abs_nonneg _) h2.1.1
        rw [tdiv2 (by omega)] at b
        omega
      · cases mu <;> simpa [Mult.l] using h2.1.1
      · cases mu <;> simpa [Mult.l] using h2.1.2
      · cases mu <;> simp only [Mult.pg] <;> rw [h2.2] <;> rcases hp with rfl | rfl <;> ring

theorem sum_single {α : Type} [DecidableEq α] {L : List α} (hL : L.Nodup) (f : α → K) (a : α)
    (h : ∀ x ∈ L, x ≠ a → f x = 0) : (L.map f).sum = if a ∈ L then f a else 0 := by
  induction L with
  | nil => simp
  | cons b L ih =>
    have hn := List.nodup_cons.mp hL
    rw [List.map_cons, List.sum_cons, ih hn.2 (fun x hx => h x (List.mem_cons_of_mem _ hx))]
    by_cases e : b = a
    · subst e
      rw [if_neg hn.1, if_pos List.mem_cons_self, add_zero]
    · rw [h b List.mem_cons_self e, zero_add]
      have : (a ∈ b :: L) ↔ a ∈ L := by
        rw [List.mem_cons]
        exact ⟨fun h => h.resolve_left (fun h => e h.symm), Or.inr⟩
      simp only [this]

/-- Population of a continuum state of the parent nucleus before normalisation. -/
theorem gammaTerms_cont {maxJ : Nat} {w : K} {n : Nuc K} {m : Mesh K} {ph : Phys K} {p0 jdx : Int}
    (hp : p0 = 1 ∨ p0 = -1) (k : Nat) (idx : Int) (even : Bool) (h0 : 0 ≤ idx) (hJ : idx < maxJ) :
    popOf (gammaTerms maxJ w n m ph p0 (2 * jdx + i0 n)) (.cont k idx even) =
      if 1 ≤ k ∧ k < m.ncont then
        ([Mult.E1, .M1, .E2].map fun mu =>
          if PhotonBy mu (2 * jdx + i0 n) p0 (2 * idx + i0 n) (if even then 1 else -1) then
            ph.tgC mu k * (ph.dens0 k idx even * w) else 0).sum
      else 0 := by
  unfold gammaTerms
  rw [popOf_append, popOf_flatMap, popOf_flatMap]
  have hz : (n.levels.zipIdx.map fun li => popOf ([Mult.E1, .M1, .E2].flatMap fun mu =>
      tc2d mu li.2 li.1 p0 (2 * jdx + i0 n) (ph.tgD mu li.2)) (.cont k idx even)).sum = 0 := by
    apply List.sum_eq_zero
    intro x hx
    obtain ⟨li, -, rfl⟩ := List.mem_map.mp hx
    rw [popOf_flatMap]
    simp [tc2d_cont]
  rw [hz, add_zero, sum_single (a := k) List.nodup_range']
  · have : (k ∈ List.range' 1 (m.ncont - 1)) ↔ (1 ≤ k ∧ k < m.ncont) := by
      rw [List.mem_range'_1]; omega
    simp only [this]
    apply if_congr Iff.rfl _ rfl
    rw [popOf_flatMap]
    congr 1
    apply List.map_congr_left
    intro mu _
    rw [tc2c_exact (i0_cases n) hp mu k _ _ _ k idx even hJ h0]
    simp
  · intro x _ hx
    rw [popOf_flatMap]
    apply List.sum_eq_zero
    intro y hy
    obtain ⟨mu, -, rfl⟩ := List.mem_map.mp hy
    rw [tc2c_exact (i0_cases n) hp mu x _ _ _ k idx even hJ h0, if_neg (fun h => hx h.1)]

/-- Population of a discrete level of the parent nucleus before normalisation. -/
theorem gammaTerms_disc {maxJ : Nat} {w : K} {n : Nuc K} {m : Mesh K} {ph : Phys K} {p0 j0 : Int}
    (hp : p0 = 1 ∨ p0 = -1) {i : Nat} {lev : Level K} (hi : n.levels[i]? = some lev)
    (hl : (lev.spin2 - j0) % 2 = 0) :
    popOf (gammaTerms maxJ w n m ph p0 j0) (.disc i) =
      ([Mult.E1, .M1, .E2].map fun mu =>
        if PhotonBy mu j0 p0 lev.spin2 lev.parity then ph.tgD mu i else 0).sum := by
  unfold gammaTerms
  rw [popOf_append, popOf_flatMap, popOf_flatMap]
  have hz : ((List.range' 1 (m.ncont - 1)).map fun k1 => popOf ([Mult.E1, .M1, .E2].flatMap fun mu =>
      tc2c maxJ (i0 n) mu k1 p0 j0 (ph.tgC mu k1) w ph.dens0) (.disc i)).sum = 0 := by
    apply List.sum_eq_zero
    intro x hx
    obtain ⟨li, -, rfl⟩ := List.mem_map.mp hx
    apply popOf_eq_zero
    intro t ht
    obtain ⟨mu, -, ht⟩ := List.mem_flatMap.mp ht
    obtain ⟨j1, -, -, rfl⟩ := mem_tc2c.mp ht
    simp
  have hnd : n.levels.zipIdx.Nodup := List.Nodup.of_map Prod.snd (by
    rw [List.zipIdx_map_snd]; exact List.nodup_range')
  classical
  rw [hz, zero_add, sum_single (a := (lev, i)) hnd]
  · rw [if_pos (List.mk_mem_zipIdx_iff_getElem?.mpr hi), popOf_flatMap]
    congr 1
    apply List.map_congr_left
    intro mu _
    rw [tc2d_exact mu i lev hp hl]
    simp
  · rintro ⟨lev', i'⟩ hx hne
    have hi' := List.mk_mem_zipIdx_iff_getElem?.mp hx
    apply popOf_eq_zero
    intro t ht e
    obtain ⟨mu, -, ht⟩ := List.mem_flatMap.mp ht
    obtain ⟨-, -, -, -, rfl⟩ := mem_tc2d.mp ht
    simp only [Cell.disc.injEq] at e
    subst e
    rw [hi] at hi'
    cases hi'
    exact hne rfl

theorem pl_pow (l : Nat) : pl l = (-1) ^ l := by
  unfold pl
  rcases Nat.even_or_odd l with h | h
  · rw [if_neg (by rw [Nat.even_iff] at h; omega), h.neg_one_pow]
  · rw [if_pos (by rw [Nat.odd_iff] at h; omega), h.neg_one_pow]

theorem pl_cases (l : Nat) : pl l = 1 ∨ pl l = -1 := by
  unfold pl; split <;> simp

/-- Neutron populations respect the coupling rules (continuum). -/
theorem neutronTerms_cont {maxJ : Nat} {w : K} {n0 n1 : Nuc K} {m0 m1 : Mesh K} {ph : Phys K}
    {pcn jdx : Int} (hp : pcn = 1 ∨ pcn = -1) (hi : i0 n1 = 1 - i0 n0) {k : Nat} {idx : Int} {even : Bool}
    (h : popOf (neutronTerms maxJ w n0 n1 m0 m1 ph pcn (2 * jdx + i0 n0)) (.cont k idx even) ≠ 0) :
    k < m1.ncont ∧ n0.sn + m1.exc k ≤ m0.exc 0 ∧ ∃ (l : Nat) (j : Int), (l : Int) ≤ ph.lmaxC k ∧
      NeutronBy l j (2 * jdx + i0 n0) pcn (2 * idx + i0 n1) (if even then 1 else -1) := by
  obtain ⟨x, hx⟩ := popOf_ne_zero h
  rcases mem_neutronTerms.mp hx with ⟨k', h1, h2, h3, h4⟩ | ⟨i, lev, h1, h2, h3, h4⟩
  · obtain ⟨l, sp, j1, g1, g2, g3⟩ := mem_parCont.mp h4
    simp only [Prod.mk.injEq, Cell.cont.injEq] at g3
    obtain ⟨⟨rfl, g4, g5⟩, -⟩ := g3
    obtain ⟨w1, w2, w3⟩ := mem_waves.mp g1
    obtain ⟨q, q1, q2⟩ := mem_steps2.mp g2
    have e2 : (|2 * jdx + i0 n0 - (2 * (l : Int) + sp)| - (2 * jdx + i0 n0 - (2 * (l : Int) + sp))) % 2 = 0 := by
      rcases abs_cases (2 * jdx + i0 n0 - (2 * (l : Int) + sp)) with ⟨h, -⟩ | ⟨h, -⟩ <;> rw [h] <;> omega
    have hab := abs_nonneg (2 * jdx + i0 n0 - (2 * (l : Int) + sp))
    have hj1 : j1 = 2 * idx + i0 n1 := by
      rw [← idx_spin (i0_cases n1) (by omega) (by omega)]
      exact g4.symm
    refine ⟨h1, by linarith, l, 2 * l + sp, w1, w3, by omega, ⟨by omega, ?_⟩, ?_⟩
    · have := (le_min_iff.mp q2).1
      omega
    · have := (parity_even hp (pl_cases l) even).mp g5.symm
      rw [this, pl_pow]; ring
  · obtain ⟨l, sp, g1, g2, g3, g4, g5⟩ := mem_parDisc.mp h4
    simp at g5

/-- Neutron populations respect the coupling rules (discrete levels). -/
theorem neutronTerms_disc {maxJ : Nat} {w : K} {n0 n1 : Nuc K} {m0 m1 : Mesh K} {ph : Phys K}
    {pcn j0 : Int} (hp : pcn = 1 ∨ pcn = -1) {i : Nat}
    (h : popOf (neutronTerms maxJ w n0 n1 m0 m1 ph pcn j0) (.disc i) ≠ 0) :
    ∃ lev, n1.levels[i]? = some lev ∧ n0.sn + lev.energy ≤ m0.exc 0 ∧ ∃ (l : Nat) (j : Int),
      (l : Int) ≤ ph.lmaxD i ∧ NeutronBy l j j0 pcn lev.spin2 lev.parity := by
  obtain ⟨x, hx⟩ := popOf_ne_zero h
  rcases mem_neutronTerms.mp hx with ⟨k', h1, h2, h3, h4⟩ | ⟨i', lev, h1, h2, h3, h4⟩
  · obtain ⟨l, sp, j1, g1, g2, g3⟩ := mem_parCont.mp h4
    simp at g3
  · obtain ⟨l, sp, g1, g2, g3, g4, g5⟩ := mem_parDisc.mp h4
    simp only [Prod.mk.injEq, Cell.disc.injEq] at g5
    obtain ⟨rfl, -⟩ := g5
    obtain ⟨w1, w2, w3⟩ := mem_waves.mp g1
    refine ⟨lev, h1, by linarith, l, 2 * l + sp, w1, w3, by omega, ⟨g3, g4⟩, ?_⟩
    rw [← pl_pow, g2]
    rcases hp with rfl | rfl <;> ring

theorem list_sum_mul {α : Type} (l : List α) (f : α → K) (c : K) :
    (l.map fun x => f x * c).sum = (l.map f).sum * c := by
  induction l with
  | nil => simp
  | cons a l ih => simp only [List.map_cons, List.sum_cons, ih]; ring

theorem list_sum_add {α : Type} (l : List α) (f g : α → K) :
    (l.map fun x => f x + g x).sum = (l.map f).sum + (l.map g).sum := by
  induction l with
  | nil => simp
  | cons a l ih => simp only [List.map_cons, List.sum_cons, ih]; ring

theorem sum_waves (lm : Nat) (f : Nat × Int → K) : ((waves lm).map f).sum =
    ((List.range (lm + 1)).map fun l : Nat =>
      (if (0 : Int) ≤ 2 * l + 1 then f (l, 1) else 0) + (if (0 : Int) ≤ 2 * l - 1 then f (l, -1) else 0)).sum := by
  unfold waves
  have e : ((lm : Int) + 1).toNat = lm + 1 := by omega
  rw [e]
  generalize List.range (lm + 1) = L
  induction L with
  | nil => simp
  | cons a L ih =>
    rw [List.flatMap_cons, List.filter_append, List.map_append, List.sum_append, ih, List.map_cons, List.sum_cons]
    congr 1
    simp only [List.filter_cons, List.filter_nil]
    have h1 : (0 : Int) ≤ 2 * a + 1 := by omega
    have h2 : (2 * (a : Int) + -1) = 2 * a - 1 := by ring
    simp only [h1, h2, decide_true, if_true, decide_eq_true_eq]
    split <;> simp

theorem tjIndex_up (l : Nat) : tjIndex (l, 1) = 3 * l := by
  unfold tjIndex
  have : (2 * (l : Int) * 3 + (1 - 1)) = 2 * ((3 * l : Nat) : Int) := by push_cast; ring
  simp only [this]
  rw [Int.mul_tdiv_cancel_left _ (by norm_num)]
  omega

theorem tjIndex_down (l : Nat) : tjIndex (l, -1) = 3 * l + 1 := by
  unfold tjIndex
  have : (2 * (l : Int) * 3 + (1 - -1)) = 2 * ((3 * l + 1 : Nat) : Int) := by push_cast; ring
  simp only [this]
  rw [Int.mul_tdiv_cancel_left _ (by norm_num)]
  omega

/-- Population from one partial wave. -/
theorem wave_exact {i1 : Int} (hi : i1 = 0 ∨ i1 = 1) {pcn : Int} (hp : pcn = 1 ∨ pcn = -1) {maxJ : Nat} {jcn : Int}
    (hc : (jcn - (1 - i1)) % 2 = 0)
    (l : Nat) (sp : Int) (hs : sp = 1 ∨ sp = -1) (h0 : 0 ≤ 2 * (l : Int) + sp) (k : Nat) (x : K) (bw : K)
    (dens : Nat → Int → Bool → K) (idx : Int) (even : Bool) (hx : 0 ≤ idx) (hJ : 2 * idx + i1 ≤ 2 * ((maxJ : Int) - 1)) :
    popOf ((steps2 |jcn - (2 * (l : Int) + sp)| (min (jcn + (2 * (l : Int) + sp)) (2 * ((maxJ : Int) - 1)))).map fun j1 =>
      ((Cell.cont k ((j1 - i1).tdiv 2) (decide (pl l * pcn = 1)),
        x * (dens k ((j1 - i1).tdiv 2) (decide (pl l * pcn = 1)) * bw)) : Cell × K)) (.cont k idx even) =
      if NeutronBy l (2 * l + sp) jcn pcn (2 * idx + i1) (if even then 1 else -1) then x * (dens k idx even * bw) else 0 := by
  have e2 : (|jcn - (2 * (l : Int) + sp)| - (jcn - (2 * (l : Int) + sp))) % 2 = 0 := by
    rcases abs_cases (jcn - (2 * (l : Int) + sp)) with ⟨h, -⟩ | ⟨h, -⟩ <;> rw [h] <;> omega
  have hab := abs_nonneg (jcn - (2 * (l : Int) + sp))
  have hid : ∀ j1 ∈ steps2 |jcn - (2 * (l : Int) + sp)| (min (jcn + (2 * (l : Int) + sp)) (2 * ((maxJ : Int) - 1))),
      j1 = 2 * ((j1 - i1).tdiv 2) + i1 ∧ 0 ≤ j1 := by
    intro j1 hj
    obtain ⟨q, q1, q2⟩ := mem_steps2.mp hj
    exact ⟨(idx_spin hi (by omega) (by omega)).mp rfl, by omega⟩
  have hpar := parity_even hp (pl_cases l) even
  by_cases hb : NeutronBy l (2 * l + sp) jcn pcn (2 * idx + i1) (if even then 1 else -1)
  · rw [if_pos hb]
    obtain ⟨-, -, ⟨b1, b2⟩, b3⟩ := hb
    have he : decide (pl l * pcn = 1) = even := by
      rw [hpar, b3, pl_pow]; ring
    have hm : 2 * idx + i1 ∈ steps2 |jcn - (2 * (l : Int) + sp)|
        (min (jcn + (2 * (l : Int) + sp)) (2 * ((maxJ : Int) - 1))) := by
      rw [mem_steps2]
      refine ⟨((2 * idx + i1 - |jcn - (2 * (l : Int) + sp)|) / 2).toNat, by omega, le_min b2 hJ⟩
    have hdv : (2 * idx + i1 - i1).tdiv 2 = idx := by
      rw [add_sub_cancel_right, Int.mul_tdiv_cancel_left _ (by norm_num)]
    rw [he, popOf_map_unique (j1 := 2 * idx + i1) (steps2_nodup _ _), if_pos hm]
    · simp only [hdv]
    · intro j1 hj1
      simp only [Cell.cont.injEq, true_and, and_true]
      constructor
      · intro e
        rw [(hid j1 hj1).1, e]
      · rintro rfl
        exact hdv
  · rw [if_neg hb]
    apply popOf_eq_zero
    intro t ht e
    obtain ⟨j1, hj1, rfl⟩ := List.mem_map.mp ht
    simp only [Cell.cont.injEq, true_and] at e
    obtain ⟨e1, e2⟩ := e
    have h3 := hid j1 hj1
    rw [e1] at h3
    obtain ⟨q, q1, q2⟩ := mem_steps2.mp hj1
    apply hb
    have e3 := hpar.mp e2
    have := (le_min_iff.mp q2).1
    refine ⟨h0, by omega, ⟨by omega, by omega⟩, ?_⟩
    rw [e3, pl_pow]; ring

theorem parCont_exact {i1 : Int} (hi : i1 = 0 ∨ i1 = 1) {pcn : Int} (hp : pcn = 1 ∨ pcn = -1) {maxJ : Nat} {jcn : Int}
    (hc : (jcn - (1 - i1)) % 2 = 0) (lm : Nat) (k : Nat) (tran : Nat → K) (bw : K)
    (dens : Nat → Int → Bool → K) (idx : Int) (even : Bool) (hx : 0 ≤ idx) (hJ : 2 * idx + i1 ≤ 2 * ((maxJ : Int) - 1)) :
    popOf (parCont maxJ i1 k pcn jcn lm tran bw dens) (.cont k idx even) =
      neutronStrength lm tran jcn pcn (2 * idx + i1) (if even then 1 else -1) * (dens k idx even * bw) := by
  unfold parCont
  rw [popOf_flatMap, sum_waves]
  unfold neutronStrength
  rw [← list_sum_mul]
  congr 1
  apply List.map_congr_left
  intro l _
  have h1 : (0 : Int) ≤ 2 * l + 1 := by omega
  rw [if_pos h1, wave_exact hi hp hc l 1 (Or.inl rfl) h1 k _ bw dens idx even hx hJ, tjIndex_up, add_mul]
  congr 1
  · rw [ite_mul, zero_mul]
  · by_cases h2 : (0 : Int) ≤ 2 * l - 1
    · rw [if_pos h2, wave_exact hi hp hc l (-1) (Or.inr rfl) (by omega) k _ bw dens idx even hx hJ, tjIndex_down,
        ite_mul, zero_mul]
      apply if_congr _ rfl rfl
      rw [← sub_eq_add_neg]
    · rw [if_neg h2, if_neg (fun h => h2 h.1), zero_mul]

theorem parCont_other {i1 pcn jcn lm : Int} {maxJ k k' : Nat} (tran : Nat → K) (bw : K)
    (dens : Nat → Int → Bool → K) (idx : Int) (even : Bool) (hk : k ≠ k') :
    popOf (parCont maxJ i1 k pcn jcn lm tran bw dens) (.cont k' idx even) = 0 := by
  apply popOf_eq_zero
  intro t ht e
  obtain ⟨l, sp, j1, -, -, rfl⟩ := mem_parCont.mp ht
  simp only [Cell.cont.injEq] at e
  exact hk e.1

/-- Population of a continuum state of the daughter before normalisation. -/
theorem neutronTerms_cont_exact {maxJ : Nat} {w : K} {n0 n1 : Nuc K} {m0 m1 : Mesh K} {ph : Phys K}
    {pcn jdx : Int} (hp : pcn = 1 ∨ pcn = -1) (hi : i0 n1 = 1 - i0 n0) (k : Nat) (idx : Int) (even : Bool)
    (h0 : 0 ≤ idx) (hJ : 2 * idx + i0 n1 ≤ 2 * ((maxJ : Int) - 1)) :
    popOf (neutronTerms maxJ w n0 n1 m0 m1 ph pcn (2 * jdx + i0 n0)) (.cont k idx even) =
      if k < m1.ncont ∧ n0.sn + m1.exc k ≤ m0.exc 0 ∧ 0 < ph.lmaxC k then
        neutronStrength (ph.lmaxC k).toNat (ph.tranC k) (2 * jdx + i0 n0) pcn (2 * idx + i0 n1)
          (if even then 1 else -1) * (ph.dens1 k idx even * w)
      else 0 := by
  unfold neutronTerms
  rw [popOf_append, popOf_flatMap]
  have hz : popOf (n1.levels.zipIdx.flatMap fun li =>
      if lmaxOpen (m0.exc 0 - li.1.energy - n0.sn) (ph.lmaxD li.2) ≤ 0 then []
      else parDisc li.2 li.1 pcn (2 * jdx + i0 n0) (lmaxOpen (m0.exc 0 - li.1.energy - n0.sn) (ph.lmaxD li.2))
        (ph.tranD li.2)) (.cont k idx even) = 0 := by
    apply popOf_eq_zero
    intro t ht
    obtain ⟨li, -, ht⟩ := List.mem_flatMap.mp ht
    split at ht
    · cases ht
    · obtain ⟨l, sp, -, -, -, -, rfl⟩ := mem_parDisc.mp ht
      simp
  simp only at hz ⊢
  rw [hz, add_zero, sum_single (a := k) List.nodup_range]
  · simp only [List.mem_range]
    by_cases hk : k < m1.ncont
    · rw [if_pos hk]
      unfold lmaxOpen
      by_cases he : m0.exc 0 - m1.exc k - n0.sn < 0
      · rw [if_pos he, if_pos le_rfl, if_neg (by rintro ⟨-, h, -⟩; linarith)]
        rfl
      · rw [if_neg he]
        by_cases hl : ph.lmaxC k ≤ 0
        · rw [if_pos hl, if_neg (by rintro ⟨-, -, h⟩; omega)]
          rfl
        · rw [if_neg hl, if_pos ⟨hk, by linarith, by omega⟩]
          have e : ph.lmaxC k = ((ph.lmaxC k).toNat : Int) := by omega
          conv_lhs => rw [e]
          rw [parCont_exact (i0_cases n1) hp (by omega) _ k _ w ph.dens1 idx even h0 hJ]
    · rw [if_neg hk, if_neg (fun h => hk h.1)]
  · intro x _ hx
    split
    · rfl
    · exact parCont_other _ _ _ _ _ hx

theorem parDisc_exact {pcn : Int} (hp : pcn = 1 ∨ pcn = -1) {jcn : Int} (lm : Nat) (i : Nat) (lev : Level K)
    (hpl : lev.parity = 1 ∨ lev.parity = -1) (tran : Nat → K) :
    popOf (parDisc i lev pcn jcn lm tran) (.disc i) = neutronStrength lm tran jcn pcn lev.spin2 lev.parity := by
  unfold parDisc
  rw [popOf_flatMap, sum_waves]
  unfold neutronStrength
  congr 1
  apply List.map_congr_left
  intro l _
  have key : ∀ sp : Int, (sp = 1 ∨ sp = -1) → 0 ≤ 2 * (l : Int) + sp →
      popOf (if pl l ≠ pcn * lev.parity then []
        else if |jcn - (2 * (l : Int) + sp)| ≤ lev.spin2 ∧ lev.spin2 ≤ jcn + (2 * (l : Int) + sp) then
          [((.disc i : Cell), tran (tjIndex (l, sp)))] else []) (.disc i) =
      if NeutronBy l (2 * l + sp) jcn pcn lev.spin2 lev.parity then tran (tjIndex (l, sp)) else 0 := by
    intro sp hs h0
    by_cases h1 : pl l = pcn * lev.parity
    · rw [if_neg (by simpa using h1)]
      have h4 : lev.parity = pcn * (-1) ^ l := by
        rw [← pl_pow, h1]; rcases hp with rfl | rfl <;> ring
      by_cases h2 : |jcn - (2 * (l : Int) + sp)| ≤ lev.spin2 ∧ lev.spin2 ≤ jcn + (2 * (l : Int) + sp)
      · rw [if_pos h2, if_pos ⟨h0, by omega, h2, h4⟩, popOf_cons, popOf_nil, if_pos rfl, add_zero]
      · rw [if_neg h2, if_neg (fun h => h2 h.2.2.1)]
        rfl
    · rw [if_pos (by simpa using h1), if_neg]
      · rfl
      · rintro ⟨-, -, -, h⟩
        apply h1
        rw [h, ← pl_pow]
        rcases hp with rfl | rfl <;> ring
  have h1 : (0 : Int) ≤ 2 * l + 1 := by omega
  rw [if_pos h1, key 1 (Or.inl rfl) h1, tjIndex_up]
  congr 1
  by_cases h2 : (0 : Int) ≤ 2 * l - 1
  · rw [if_pos h2, key (-1) (Or.inr rfl) (by omega), tjIndex_down]
    rfl
  · rw [if_neg h2, if_neg (fun h => h2 h.1)]

/-- Population of a discrete level of the daughter before normalisation. -/
theorem neutronTerms_disc_exact {maxJ : Nat} {w : K} {n0 n1 : Nuc K} {m0 m1 : Mesh K} {ph : Phys K}
    {pcn j0 : Int} (hp : pcn = 1 ∨ pcn = -1) {i : Nat} {lev : Level K} (hl : n1.levels[i]? = some lev)
    (hpl : lev.parity = 1 ∨ lev.parity = -1) :
    popOf (neutronTerms maxJ w n0 n1 m0 m1 ph pcn j0) (.disc i) =
      if n0.sn + lev.energy ≤ m0.exc 0 ∧ 0 < ph.lmaxD i then
        neutronStrength (ph.lmaxD i).toNat (ph.tranD i) j0 pcn lev.spin2 lev.parity
      else 0 := by
  unfold neutronTerms
  rw [popOf_append, popOf_flatMap (n1.levels.zipIdx)]
  have hz : popOf ((List.range m1.ncont).flatMap fun k1 =>
      if lmaxOpen (m0.exc 0 - m1.exc k1 - n0.sn) (ph.lmaxC k1) ≤ 0 then [] else
        parCont maxJ (i0 n1) k1 pcn j0 (lmaxOpen (m0.exc 0 - m1.exc k1 - n0.sn) (ph.lmaxC k1)) (ph.tranC k1) w
          ph.dens1) (.disc i) = 0 := by
    apply popOf_eq_zero
    intro t ht
    obtain ⟨li, -, ht⟩ := List.mem_flatMap.mp ht
    split at ht
    · cases ht
    · obtain ⟨l, sp, j1, -, -, rfl⟩ := mem_parCont.mp ht
      simp
  have hnd : n1.levels.zipIdx.Nodup := List.Nodup.of_map Prod.snd (by
    rw [List.zipIdx_map_snd]; exact List.nodup_range')
  classical
  simp only at hz ⊢
  rw [hz, zero_add, sum_single (a := (lev, i)) hnd]
  · rw [if_pos (List.mk_mem_zipIdx_iff_getElem?.mpr hl)]
    simp only
    unfold lmaxOpen
    by_cases he : m0.exc 0 - lev.energy - n0.sn < 0
    · rw [if_pos he, if_pos le_rfl, if_neg (by rintro ⟨h, -⟩; linarith)]
      rfl
    · rw [if_neg he]
      by_cases hl : ph.lmaxD i ≤ 0
      · rw [if_pos hl, if_neg (by rintro ⟨-, h⟩; omega)]
        rfl
      · rw [if_neg hl, if_pos ⟨by linarith, by omega⟩]
        have e : ph.lmaxD i = ((ph.lmaxD i).toNat : Int) := by omega
        conv_lhs => rw [e]
        rw [parDisc_exact hp _ i lev hpl]
  · rintro ⟨lev', i'⟩ hx hne
    have hi' := List.mk_mem_zipIdx_iff_getElem?.mp hx
    apply popOf_eq_zero
    intro t ht e
    split at ht
    · cases ht
    · obtain ⟨l, sp, -, -, -, -, rfl⟩ := mem_parDisc.mp ht
      simp only [Cell.disc.injEq] at e
      subst e
      rw [hl] at hi'
      cases hi'
      exact hne rfl

end CGMF.HF

namespace CGMF.HF

open CGMF.Grid CGMF.MC

variable {K : Type} [Field K] [LinearOrder K] [IsStrictOrderedRing K]

/-! ## Forced transitions -/

/-- A level that the forced transition prefers. -/
theorem e1Candidate_iff (l : Level K) (p j : Int) : e1Candidate l p j = true ↔
    l.parity * p ≤ 0 ∧ |l.spin2 - 2 * j| < 4 ∧ 2 ≤ l.spin2 + 2 * j := by
  unfold e1Candidate
  simp [and_assoc]

theorem pickE1_none {p j : Int} : ∀ {ls : List (Level K)} {i : Nat} {xpr : K} {best : Option Nat}
    {s s' : List K}, pickE1 p j ls i xpr best s = .ok (none, s') → (best = none → ∀ r ∈ s, xpr < r) →
    best = none ∧ ∀ l ∈ ls, e1Candidate l p j = false := by
  intro ls
  induction ls with
  | nil =>
    intro i xpr best s s' h _
    rw [pickE1] at h
    obtain ⟨h1, -⟩ := Rnd.pure_ok.mp h
    exact ⟨h1, fun l hl => by cases hl⟩
  | cons a ls ih =>
    intro i xpr best s s' h hr
    rw [pickE1] at h
    by_cases hc : e1Candidate a p j = true
    · rw [if_pos hc] at h
      obtain ⟨x, s1, h1, h2⟩ := Rnd.bind_ok.mp h
      clear h
      rw [Rnd.draw_ok] at h1
      subst h1
      have h := h2
      by_cases hx : xpr < x
      · rw [if_pos hx] at h
        have := (ih h (by intro h; cases h)).1
        cases this
      · rw [if_neg hx] at h
        have := ih h (fun hb r hr' => hr hb r (List.mem_cons_of_mem _ hr'))
        exact absurd (hr this.1 x List.mem_cons_self) hx
    · rw [if_neg hc] at h
      obtain ⟨h1, h2⟩ := ih h hr
      refine ⟨h1, ?_⟩
      intro l hl
      rcases List.mem_cons.mp hl with rfl | hl
      · simpa using hc
      · exact h2 l hl

theorem closest_min {j : Int} : ∀ {ls : List (Level K)} {i : Nat} {d : Int} {best : Option Nat} {b : Nat},
    closest j ls i d best = some b →
    (best = some b ∧ ∀ l ∈ ls, d ≤ |l.spin2 - 2 * j|) ∨
    ∃ k l, b = i + k ∧ ls[k]? = some l ∧ |l.spin2 - 2 * j| < d ∧
      (∀ l' ∈ ls, |l.spin2 - 2 * j| ≤ |l'.spin2 - 2 * j|) ∧
      (∀ k' l', k' < k → ls[k']? = some l' → |l.spin2 - 2 * j| < |l'.spin2 - 2 * j|) := by
  intro ls
  induction ls with
  | nil => intro i d best b h; exact Or.inl ⟨h, fun l hl => by cases hl⟩
  | cons a ls ih =>
    intro i d best b h
    rw [closest] at h
    by_cases hc : |a.spin2 - 2 * j| < d
    · rw [if_pos hc] at h
      right
      rcases ih h with ⟨h1, h2⟩ | ⟨k, l, h1, h2, h3, h4, h5⟩
      · cases h1
        refine ⟨0, a, rfl, rfl, hc, ?_, fun k' _ h => by omega⟩
        intro l' hl'
        rcases List.mem_cons.mp hl' with rfl | hl'
        · exact le_rfl
        · exact h2 l' hl'
      · refine ⟨k + 1, l, by omega, by simpa using h2, by omega, ?_, ?_⟩
        · intro l' hl'
          rcases List.mem_cons.mp hl' with rfl | hl'
          · exact h3.le
          · exact h4 l' hl'
        · intro k' l' hk hl'
          rcases k' with _ | k'
          · simp at hl'; subst hl'; exact h3
          · exact h5 k' l' (by omega) (by simpa using hl')
    · rw [if_neg hc] at h
      rcases ih h with ⟨h1, h2⟩ | ⟨k, l, h1, h2, h3, h4, h5⟩
      · left
        refine ⟨h1, ?_⟩
        intro l' hl'
        rcases List.mem_cons.mp hl' with rfl | hl'
        · exact not_lt.mp hc
        · exact h2 l' hl'
      · right
        refine ⟨k + 1, l, by omega, by simpa using h2, h3, ?_, ?_⟩
        · intro l' hl'
          rcases List.mem_cons.mp hl' with rfl | hl'
          · exact h3.le.trans (not_lt.mp hc)
          · exact h4 l' hl'
        · intro k' l' hk hl'
          rcases k' with _ | k'
          · simp at hl'; subst hl'; exact lt_of_lt_of_le h3 (not_lt.mp hc)
          · exact h5 k' l' (by omega) (by simpa using hl')

theorem forced_ok {levels : List (Level K)} {p j : Int} {i : Nat} {s s' : List K}
    (h : forced levels p j s = .ok (i, s')) (hr : ∀ r ∈ s, 0 ≤ r) :
    ∃ l, levels[i]? = some l ∧
      (e1Candidate l p j = true ∨ ((∀ l' ∈ levels, e1Candidate l' p j = false) ∧
        ∀ l' ∈ levels, |l.spin2 - 2 * j| ≤ |l'.spin2 - 2 * j|)) := by
  unfold forced at h
  obtain ⟨b, s1, h1, h⟩ := Rnd.bind_ok.mp h
  rcases b with _ | b
  · obtain ⟨h2, rfl⟩ := Rnd.get_ok.mp h
    obtain ⟨-, h3⟩ := pickE1_none h1 (fun _ r hr' => lt_of_lt_of_le (by norm_num) (hr r hr'))
    rcases closest_min h2 with ⟨h4, -⟩ | ⟨k, l, h4, h5, -, h6, -⟩
    · cases h4
    · have : i = k := by omega
      subst this
      exact ⟨l, h5, Or.inr ⟨h3, h6⟩⟩
  · obtain ⟨h2, rfl⟩ := Rnd.pure_ok.mp h
    subst h2
    rcases pickE1_ok h1 with h2 | ⟨k, l, h2, h3, h4⟩
    · cases h2
    · have : b = k := by
        have := Option.some.inj h2
        omega
      subst this
      exact ⟨l, h3, Or.inl h4⟩

/-! ## Sampling -/

theorem prefix_unique {α : Type} {r : K} {l l1 l2 l1' l2' : List (α × K)} {c c' : α} {y y' : K}
    (hn : ∀ t ∈ l, 0 ≤ t.2) (h : l = l1 ++ (c, y) :: l2) (h' : l = l1' ++ (c', y') :: l2')
    (a1 : (l1.map Prod.snd).sum < r) (a2 : r ≤ (l1.map Prod.snd).sum + y)
    (b1 : (l1'.map Prod.snd).sum < r) (b2 : r ≤ (l1'.map Prod.snd).sum + y') : l1 = l1' ∧ c = c' ∧ y = y' := by
  have key : ∀ {l1 l2 l1' l2' : List (α × K)} {c c' : α} {y y' : K}, l = l1 ++ (c, y) :: l2 →
      l = l1' ++ (c', y') :: l2' → r ≤ (l1.map Prod.snd).sum + y → (l1'.map Prod.snd).sum < r →
      ¬ l1.length < l1'.length := by
    intro l1 l2 l1' l2' c c' y y' h h' a2 b1 hlt
    have e1 : l.take (l1.length + 1) = l1 ++ [(c, y)] := by
      rw [h, List.take_append, List.take_of_length_le (by omega)]
      simp
    have e2 : l.take l1'.length = l1' := by rw [h']; simp
    have e3 : l1 ++ [(c, y)] ++ (l1'.drop (l1.length + 1)) = l1' := by
      have : l1 ++ [(c, y)] = l1'.take (l1.length + 1) := by
        rw [← e1]
        conv_rhs => rw [← e2, List.take_take, min_eq_left (by omega : l1.length + 1 ≤ l1'.length)]
      rw [this, List.take_append_drop]
    have : (l1'.map Prod.snd).sum = (l1.map Prod.snd).sum + y + ((l1'.drop (l1.length + 1)).map Prod.snd).sum := by
      conv_lhs => rw [← e3]
      simp [add_assoc]
    have hd : 0 ≤ ((l1'.drop (l1.length + 1)).map Prod.snd).sum := by
      apply List.sum_nonneg
      intro x hx
      obtain ⟨t, ht, rfl⟩ := List.mem_map.mp hx
      apply hn
      rw [h']
      exact List.mem_append_left _ (List.mem_of_mem_drop ht)
    linarith
  have hle : l1.length = l1'.length := by
    have := key h h' a2 b1
    have := key h' h b2 a1
    omega
  have := List.append_inj (h.symm.trans h') hle
  obtain ⟨e1, e2⟩ := this
  have e3 := List.cons.inj e2
  exact ⟨e1, by have := congrArg Prod.fst e3.1; simpa using this, by have := congrArg Prod.snd e3.1; simpa using this⟩

end CGMF.HF

import Verif.Spec.Widths
import Verif.Proofs.Select
import Verif.Proofs.Safe

/-! # Populations after a decay step and the Hauser-Feshbach formula -/

namespace CGMF.HF

open CGMF.MC CGMF.Grid

variable {K : Type} [Field K] [LinearOrder K] [IsStrictOrderedRing K]

theorem sum_cells (maxJ a b nlev : Nat) (hJ : 0 < maxJ) (f : Cell → K) :
    ((cells a b ((maxJ : Int) - 1) nlev).map f).sum = sumStates maxJ a b nlev f := by
  unfold cells sumStates
  rw [List.map_append, List.sum_append, List.map_map]
  congr 1
  rw [show ((maxJ : Int) - 1 + 1).toNat = maxJ by omega]
  rw [List.map_flatMap, List.flatMap_def, List.sum_flatten, List.map_map]
  congr 1
  apply List.map_congr_left
  intro k _
  show ((((List.range maxJ).flatMap fun j : Nat => [Cell.cont k j true, Cell.cont k j false])).map f).sum = _
  rw [List.map_flatMap, List.flatMap_def, List.sum_flatten, List.map_map]
  congr 1
  apply List.map_congr_left
  intro i _
  simp

/-- Populations from a decay step that is not a bypass. -/
theorem pop_strength {maxJ : Nat} {w : K} {n0 n1 : Nuc K} {m0 m1 : Mesh K} {ph : Phys K} {p j : Int} (hf : Fits n0 n1 p) :
    (∀ c, InTable maxJ n0 n1 m0 m1 (false, c) →
      popOf (gammaTerms maxJ w n0 m0 ph p (2 * j + i0 n0)) c = strength maxJ w n0 n1 m0 m1 ph p j (false, c)) ∧
    (∀ c, InTable maxJ n0 n1 m0 m1 (true, c) →
      popOf (if nOpen n0 m0 then neutronTerms maxJ w n0 n1 m0 m1 ph p (2 * j + i0 n0) else []) c
        = strength maxJ w n0 n1 m0 m1 ph p j (true, c)) := by
  have ho : nOpen n0 m0 = true ↔ n0.status = true ∧ n0.sn ≤ m0.exc 0 := by unfold nOpen; simp
  constructor
  · rintro (⟨k, idx, even⟩ | i) hc
    · obtain ⟨h1, h2, h3, h4⟩ := hc
      rw [gammaTerms_cont hf.parity k idx even h3 h4, if_pos ⟨h1, h2⟩]
      unfold strength photonStrength
      simp only [List.map_cons, List.map_nil, List.sum_cons, List.sum_nil, add_zero]
      rw [add_mul, add_mul, ite_mul, ite_mul, ite_mul, zero_mul, ← add_assoc]
    · have hc' : i < n0.levels.length := hc
      have hl : n0.levels[i]? = some n0.levels[i] := List.getElem?_eq_getElem hc'
      have := hf.spins0 i _ hl
      rw [gammaTerms_disc hf.parity hl (by omega)]
      unfold strength
      simp only [hl]
      unfold photonStrength
      simp only [List.map_cons, List.map_nil, List.sum_cons, List.sum_nil, add_zero, ← add_assoc]
  · rintro (⟨k, idx, even⟩ | i) hc
    · obtain ⟨h1, h2, h3⟩ := hc
      change _ = if n0.status = true ∧ n0.sn + m1.exc k ≤ m0.exc 0 ∧ n0.sn ≤ m0.exc 0 ∧ 0 < ph.lmaxC k ∧
          2 * idx + i0 n1 ≤ 2 * ((maxJ : Int) - 1) then
        neutronStrength (ph.lmaxC k).toNat (ph.tranC k) (2 * j + i0 n0) p (2 * idx + i0 n1) (if even then 1 else -1) *
          (ph.dens1 k idx even * w)
        else 0
      by_cases hop : nOpen n0 m0 = true
      · obtain ⟨a1, a2⟩ := ho.mp hop
        rw [if_pos hop]
        by_cases hJ : 2 * idx + i0 n1 ≤ 2 * ((maxJ : Int) - 1)
        · rw [neutronTerms_cont_exact hf.parity hf.half k idx even h2 hJ]
          apply if_congr _ rfl rfl
          simp [a1, a2, h1, hJ]
        · rw [if_neg (fun h => hJ h.2.2.2.2)]
          apply popOf_eq_zero
          intro t ht heq
          rcases mem_neutronTerms.mp ht with ⟨k', _, _, _, g4⟩ | ⟨i, lev, _, _, _, g4⟩
          · obtain ⟨l, sp, j1, g1, g2, rfl⟩ := mem_parCont.mp g4
            obtain ⟨r, e, g3⟩ := mem_steps2.mp g2
            simp only [Cell.cont.injEq] at heq
            obtain ⟨_, hidx, _⟩ := heq
            have hw := mem_waves.mp g1
            have h0 := i0_cases n0
            have h1' := hf.half
            have habs := abs_nonneg (2 * j + i0 n0 - (2 * (l : Int) + sp))
            have hpar : (|2 * j + i0 n0 - (2 * (l : Int) + sp)| - (i0 n0 + sp)) % 2 = 0 := by
              rcases abs_cases (2 * j + i0 n0 - (2 * (l : Int) + sp)) with ⟨h, _⟩ | ⟨h, _⟩ <;> rw [h] <;> omega
            have hj1 : 0 ≤ j1 := by omega
            rw [tdiv2 (by omega)] at hidx
            omega
          · have := (mem_parDisc.mp g4)
            obtain ⟨l, sp, _, _, _, _, rfl⟩ := this
            cases heq
      · rw [if_neg hop, if_neg (fun h => hop (ho.mpr ⟨h.1, h.2.2.1⟩)), popOf_nil]
    · have hc' : i < n1.levels.length := hc
      have hl : n1.levels[i]? = some n1.levels[i] := List.getElem?_eq_getElem hc'
      unfold strength
      simp only [hl]
      by_cases hop : nOpen n0 m0 = true
      · obtain ⟨a1, a2⟩ := ho.mp hop
        rw [if_pos hop, neutronTerms_disc_exact hf.parity hl (hf.parity1 i _ hl)]
        apply if_congr _ rfl rfl
        simp [a1, a2]
      · rw [if_neg hop, if_neg (fun h => hop (ho.mpr ⟨h.1, h.2.2.1⟩)), popOf_nil]

/-- Totals of the raw terms are the widths. -/
theorem total_widths {maxJ : Nat} (hJ : 0 < maxJ) {w : K} {n0 n1 : Nuc K} {m0 m1 : Mesh K} {ph : Phys K} {p j : Int} (hj : 0 ≤ j)
    (hf : Fits n0 n1 p) :
    total (gammaTerms maxJ w n0 m0 ph p (2 * j + i0 n0)) = photonWidth maxJ w n0 n1 m0 m1 ph p j ∧
    total (if nOpen n0 m0 then neutronTerms maxJ w n0 n1 m0 m1 ph p (2 * j + i0 n0) else [])
      = neutronWidth maxJ w n0 n1 m0 m1 ph p j := by
  obtain ⟨h1, h2⟩ := pop_strength (maxJ := maxJ) (w := w) (m0 := m0) (m1 := m1) (ph := ph) (j := j) hf
  have hi := i0_cases n0
  constructor
  · unfold photonWidth
    rw [← sum_cells maxJ _ _ _ hJ, ← sum_popOf (cells_nodup 1 m0.ncont ((maxJ : Int) - 1) n0.levels.length)]
    · congr 1
      apply List.map_congr_left
      intro c hc
      apply h1
      have := mem_cells.mp hc
      cases c with
      | cont k idx e => exact ⟨this.1, this.2.1, this.2.2.1, by have := this.2.2.2; omega⟩
      | disc i => exact this
    · intro t ht
      have := mem_cells.mp (gammaTerms_cells (jm := 0) ht)
      have hb := jmax0After_le hJ (j0 := 2 * j + i0 n0) (jm := 0) m0.ncont (by omega) (by omega)
      rw [mem_cells]
      generalize t.1 = c at this
      cases c with
      | cont k idx e => exact ⟨this.1, this.2.1, this.2.2.1, by have := this.2.2.2; omega⟩
      | disc i => exact this
  · unfold neutronWidth
    rw [← sum_cells maxJ _ _ _ hJ, ← sum_popOf (cells_nodup 0 m1.ncont ((maxJ : Int) - 1) n1.levels.length)]
    · congr 1
      apply List.map_congr_left
      intro c hc
      apply h2
      have := mem_cells.mp hc
      cases c with
      | cont k idx e => exact ⟨this.2.1, this.2.2.1, by have := this.2.2.2; omega⟩
      | disc i => exact this
    · intro t ht
      split at ht
      · have := mem_cells.mp (neutronTerms_cells (jm := 0) ht)
        have hb := jmax1After_le (maxJ := maxJ) (jcn := 2 * j + i0 n0) (b := (maxJ : Int) - 1)
          ((List.range m1.ncont).map fun k1 => lmaxOpen (m0.exc 0 - m1.exc k1 - n0.sn) (ph.lmaxC k1)) 0 (by omega)
          (fun lm _ => jtopHalf_le hJ _ _)
        rw [mem_cells]
        generalize t.1 = c at this
        cases c with
        | cont k idx e => exact ⟨this.1, this.2.1, this.2.2.1, by have := this.2.2.2; omega⟩
        | disc i => exact this
      · cases ht

end CGMF.HF

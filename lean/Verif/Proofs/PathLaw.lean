import Verif.Proofs.StepKernel

/-! # Law of the whole continuum loop -/

namespace CGMF.HF

open MeasureTheory CGMF.Law CGMF.MC CGMF.Grid CGMF.Props

/-! ## Entries without population do not matter -/

theorem first_pos {α : Type} : ∀ (l : List (α × ℝ)) (s r : ℝ), (∀ y ∈ l, 0 ≤ y.2) → s < r →
    firstReach r s l = firstReach r s (l.filter fun y => decide (0 < y.2)) := by
  intro l
  induction l with
  | nil => intro s r _ _; rfl
  | cons y l ih =>
    intro s r hy hr
    obtain ⟨a, x⟩ := y
    have hx : 0 ≤ x := hy (a, x) (by simp)
    have hl : ∀ y ∈ l, 0 ≤ y.2 := fun y h => hy y (by simp [h])
    by_cases hp : 0 < x
    · rw [List.filter_cons_of_pos (by simpa using hp), firstReach, firstReach]
      by_cases hc : r ≤ s + x
      · rw [if_pos hc, if_pos hc]
      · rw [if_neg hc, if_neg hc, ih _ _ hl (not_le.mp hc)]
    · have h0 : x = 0 := le_antisymm (not_lt.mp hp) hx
      rw [List.filter_cons_of_neg (by simpa using hp), firstReach, h0, add_zero, if_neg (not_le.mpr hr)]
      exact ih _ _ hl hr

theorem cells_filter (P : Cell → Bool) (k0 nc nd : Nat) {J J' : Int} (hJ : J' ≤ J)
    (hP : ∀ c ∈ cells k0 nc J nd, P c = true → c ∈ cells k0 nc J' nd) :
    (cells k0 nc J nd).filter P = (cells k0 nc J' nd).filter P := by
  unfold cells
  rw [List.filter_append, List.filter_append]
  congr 1
  rw [List.filter_flatMap, List.filter_flatMap]
  apply List.flatMap_congr
  intro k hk
  obtain ⟨d, hd⟩ : ∃ d, (J + 1).toNat = (J' + 1).toNat + d := ⟨(J + 1).toNat - (J' + 1).toNat, by omega⟩
  rw [hd, List.range_add, List.flatMap_append, List.filter_append]
  have : (List.filter P (List.flatMap (fun j : Nat => [Cell.cont k j true, Cell.cont k j false])
      ((List.range d).map fun x => (J' + 1).toNat + x))) = [] := by
    rw [List.filter_eq_nil_iff]
    intro c hc hPc
    obtain ⟨j, hj, hc⟩ := List.mem_flatMap.mp hc
    obtain ⟨x, hx, rfl⟩ := List.mem_map.mp hj
    have hx := List.mem_range.mp hx
    have hk := List.mem_range'_1.mp hk
    have hcc : ∃ b, c = .cont k ((J' + 1).toNat + x : Nat) b := by
      rcases List.mem_cons.mp hc with rfl | hc
      · exact ⟨true, rfl⟩
      · rw [List.mem_singleton.mp hc]; exact ⟨false, rfl⟩
    obtain ⟨b, rfl⟩ := hcc
    have hm := hP (.cont k ((J' + 1).toNat + x : Nat) b) (by rw [mem_cells]; refine ⟨?_, ?_, ?_, ?_⟩ <;> omega) hPc
    rw [mem_cells] at hm
    have := hm.2.2.2
    omega
  rw [this, List.append_nil]

variable {par : Par ℝ} {st : St ℝ} {m : MCPoint ℝ} {n0 n1 : Nuc ℝ} {m0 m1 : Mesh ℝ}

theorem cells_filter' (P : Cell → Bool) (k0 nc nd : Nat) (J J' : Int)
    (h1 : ∀ c ∈ cells k0 nc J nd, P c = true → c ∈ cells k0 nc J' nd) (h2 : ∀ c ∈ cells k0 nc J' nd, P c = true → c ∈ cells k0 nc J nd) :
    (cells k0 nc J nd).filter P = (cells k0 nc J' nd).filter P := by
  rcases le_total J' J with h | h
  · exact cells_filter P k0 nc nd h h1
  · exact (cells_filter P k0 nc nd h h2).symm

theorem strength_nonneg {maxJ : Nat} {w : ℝ} {ph : Phys ℝ} {p j : Int} (hw : 0 ≤ w) (hp : PhysNonneg ph) (a : Bool × Cell) :
    0 ≤ strength maxJ w n0 n1 m0 m1 ph p j a := by
  have hph : ∀ (t : Mult → ℝ) (J p J' p' : Int), (∀ mu, 0 ≤ t mu) → 0 ≤ photonStrength t J p J' p' := by
    intro t J p J' p' ht
    unfold photonStrength
    refine add_nonneg (add_nonneg ?_ ?_) ?_
    all_goals
      split
      · exact ht _
      · exact le_rfl
  have hne : ∀ (L : Nat) (t : Nat → ℝ) (J p J' p' : Int), (∀ i, 0 ≤ t i) → 0 ≤ neutronStrength L t J p J' p' := by
    intro L t J p J' p' ht
    unfold neutronStrength
    refine List.sum_nonneg fun x hx => ?_
    obtain ⟨l, -, rfl⟩ := List.mem_map.mp hx
    refine add_nonneg ?_ ?_
    all_goals
      split
      · exact ht _
      · exact le_rfl
  unfold strength
  split
  · exact mul_nonneg (hph _ _ _ _ _ fun mu => hp.tgC mu _) (mul_nonneg (hp.dens0 _ _ _) hw)
  · split
    · exact hph _ _ _ _ _ fun mu => hp.tgD mu _
    · exact le_rfl
  · split
    · exact mul_nonneg (hne _ _ _ _ _ _ fun i => hp.tranC _ i) (mul_nonneg (hp.dens1 _ _ _) hw)
    · exact le_rfl
  · split
    · split
      · exact hne _ _ _ _ _ _ fun i' => hp.tranD _ i'
      · exact le_rfl
    · exact le_rfl

theorem sumStates_nonneg {maxJ a b nlev : Nat} {f : Cell → ℝ} (hf : ∀ c, 0 ≤ f c) : 0 ≤ sumStates maxJ a b nlev f := by
  unfold sumStates
  refine add_nonneg (List.sum_nonneg fun x hx => ?_) (List.sum_nonneg fun x hx => ?_)
  · obtain ⟨k, -, rfl⟩ := List.mem_map.mp hx
    refine List.sum_nonneg fun x hx => ?_
    obtain ⟨i, -, rfl⟩ := List.mem_map.mp hx
    exact add_nonneg (hf _) (hf _)
  · obtain ⟨i, -, rfl⟩ := List.mem_map.mp hx
    exact hf _

theorem width_pos (h : Pass par st m n0 n1 m0 m1) : 0 < widthOf par m n0 n1 m0 m1 := by
  refine lt_of_le_of_ne (add_nonneg ?_ ?_) (Ne.symm h.width_ne)
  · exact sumStates_nonneg fun c => strength_nonneg h.width h.phys _
  · exact sumStates_nonneg fun c => strength_nonneg h.width h.phys _

theorem share_nonneg (h : Pass par st m n0 n1 m0 m1) (a : Bool × Cell) : 0 ≤ shareOf par m n0 n1 m0 m1 a :=
  div_nonneg (strength_nonneg h.width h.phys a) (width_pos h).le

theorem table_append : table par m n0 n1 m0 m1 =
    ((cells 1 m0.ncont ((par.maxJ : Int) - 1) n0.levels.length).map fun c => ((false, c), shareOf par m n0 n1 m0 m1 (false, c))) ++
    ((cells 0 m1.ncont ((par.maxJ : Int) - 1) n1.levels.length).map fun c => ((true, c), shareOf par m n0 n1 m0 m1 (true, c))) := by
  unfold table labels
  rw [List.map_append, List.map_map, List.map_map]
  rfl

theorem table_nonneg (h : Pass par st m n0 n1 m0 m1) : ∀ y ∈ table par m n0 n1 m0 m1, 0 ≤ y.2 := by
  intro y hy
  obtain ⟨a, -, rfl⟩ := List.mem_map.mp hy
  exact share_nonneg h a

/-- Entries with a positive population, for lists of cells that hold them all. -/
theorem filter_cells {f g : Cell → ℝ} (b : Bool) (k0 nc nd : Nat) (J J' : Int) (h1 : ∀ c, f c ≠ 0 → c ∈ cells k0 nc J nd)
    (h2 : ∀ c, f c ≠ 0 → c ∈ cells k0 nc J' nd) (hg : ∀ c ∈ cells k0 nc J' nd, f c = g c) :
    (((cells k0 nc J nd).map fun c => ((b, c), f c)).filter fun y => decide (0 < y.2)) =
      ((cells k0 nc J' nd).map fun c => ((b, c), g c)).filter fun y => decide (0 < y.2) := by
  have e : ((cells k0 nc J' nd).map fun c => ((b, c), g c)) = (cells k0 nc J' nd).map fun c => ((b, c), f c) := by
    apply List.map_congr_left
    intro c hc
    rw [hg c hc]
  rw [e, List.filter_map, List.filter_map]
  congr 1
  apply cells_filter'
  · intro c _ hc
    exact h2 c (by simpa using ne_of_gt (by simpa using hc))
  · intro c _ hc
    exact h1 c (by simpa using ne_of_gt (by simpa using hc))

/-- The selection does not depend on the spin limits kept from earlier passes. -/
theorem candidates_table (h : Pass par st m n0 n1 m0 m1) {pops : Pops ℝ}
    (hp : compoundDecay par.maxJ par.w n0 n1 m0 m1 (par.phys m.n m.e) m.p m.j (st.jmax m.n) (st.jmax n0.next) = pure pops)
    {r : ℝ} (hr : 0 < r) : firstReach r 0 (candidates n0 n1 m0 m1 pops) = firstReach r 0 (table par m n0 n1 m0 m1) := by
  have h' : compoundDecay par.maxJ par.w n0 n1 m0 m1 (par.phys m.n m.e) m.p m.j (st.jmax m.n) (st.jmax n0.next) [] =
      .ok (pops, []) := by rw [hp]; rfl
  obtain ⟨hng, hnn⟩ := pops_nonneg h.width h.phys h'
  rw [first_pos _ 0 r (candidates_nonneg (n0 := n0) (n1 := n1) (m0 := m0) (m1 := m1) hng hnn) hr,
    first_pos _ 0 r (table_nonneg h) hr]
  congr 1
  obtain ⟨t1, t2⟩ := total_widths (m1 := m1) (m0 := m0) (ph := par.phys m.n m.e) (w := par.w) h.spins h.spin.1 h.fits
  obtain ⟨nt, hnt, hj0, hj1, hc⟩ := compoundDecay_ok h'
  obtain ⟨p1, p2⟩ := pop_strength (maxJ := par.maxJ) (w := par.w) (m0 := m0) (m1 := m1) (ph := par.phys m.n m.e) (j := m.j) h.fits
  rw [← hnt] at t2 p2
  rcases hc with ⟨hz, -⟩ | ⟨ht, -, hpg, hpn⟩
  · rw [t1, t2] at hz
    exact absurd hz h.width_ne
  rw [t1, t2] at hpg hpn
  have hi := i0_cases n0
  have hJ := h.spins
  have hj := h.spin.1
  have G1 : ∀ c, popOf pops.g c ≠ 0 → c ∈ cells 1 m0.ncont pops.jmax0 n0.levels.length := by
    intro c hc
    obtain ⟨x, hx⟩ := popOf_ne_zero hc
    rw [hpg] at hx
    obtain ⟨t', ht', e⟩ := List.mem_map.mp hx
    rw [hj0]
    have := gammaTerms_cells (jm := st.jmax m.n) ht'
    rwa [(Prod.mk.inj e).1] at this
  have G2 : ∀ c, popOf pops.g c ≠ 0 → c ∈ cells 1 m0.ncont ((par.maxJ : Int) - 1) n0.levels.length := by
    intro c hc
    obtain ⟨x, hx⟩ := popOf_ne_zero hc
    rw [hpg] at hx
    obtain ⟨t', ht', e⟩ := List.mem_map.mp hx
    have := mem_cells.mp (gammaTerms_cells (jm := 0) ht')
    have hb := jmax0After_le h.spins (j0 := 2 * m.j + i0 n0) (jm := 0) m0.ncont (by omega) (by omega)
    rw [(Prod.mk.inj e).1] at this
    rw [mem_cells]
    cases c with
    | cont k idx e => exact ⟨this.1, this.2.1, this.2.2.1, by have := this.2.2.2; omega⟩
    | disc i => exact this
  have G3 : ∀ c ∈ cells 1 m0.ncont ((par.maxJ : Int) - 1) n0.levels.length, popOf pops.g c = shareOf par m n0 n1 m0 m1 (false, c) := by
    intro c hc
    rw [hpg, popOf_scale, p1 c]
    · unfold shareOf widthOf
      ring
    · have := mem_cells.mp hc
      cases c with
      | cont k idx e => exact ⟨this.1, this.2.1, this.2.2.1, by have := this.2.2.2; omega⟩
      | disc i => exact this
  have N1 : ∀ c, popOf pops.n c ≠ 0 → c ∈ cells 0 m1.ncont pops.jmax1 n1.levels.length := by
    intro c hc
    obtain ⟨x, hx⟩ := popOf_ne_zero hc
    rw [hpn] at hx
    obtain ⟨t', ht', e⟩ := List.mem_map.mp hx
    rw [hnt] at ht'
    rw [hj1]
    split at ht'
    · rename_i ho
      rw [if_pos ho]
      have := neutronTerms_cells (jm := st.jmax n0.next) ht'
      rwa [(Prod.mk.inj e).1] at this
    · cases ht'
  have N2 : ∀ c, popOf pops.n c ≠ 0 → c ∈ cells 0 m1.ncont ((par.maxJ : Int) - 1) n1.levels.length := by
    intro c hc
    obtain ⟨x, hx⟩ := popOf_ne_zero hc
    rw [hpn] at hx
    obtain ⟨t', ht', e⟩ := List.mem_map.mp hx
    rw [hnt] at ht'
    split at ht'
    · have := mem_cells.mp (neutronTerms_cells (jm := 0) ht')
      have hb := jmax1After_le (maxJ := par.maxJ) (jcn := 2 * m.j + i0 n0) (b := (par.maxJ : Int) - 1)
        ((List.range m1.ncont).map fun k1 => lmaxOpen (m0.exc 0 - m1.exc k1 - n0.sn) ((par.phys m.n m.e).lmaxC k1)) 0 (by omega)
        (fun lm _ => jtopHalf_le hJ _ _)
      rw [(Prod.mk.inj e).1] at this
      rw [mem_cells]
      cases c with
      | cont k idx e => exact ⟨this.1, this.2.1, this.2.2.1, by have := this.2.2.2; omega⟩
      | disc i => exact this
    · cases ht'
  have N3 : ∀ c ∈ cells 0 m1.ncont ((par.maxJ : Int) - 1) n1.levels.length, popOf pops.n c = shareOf par m n0 n1 m0 m1 (true, c) := by
    intro c hc
    rw [hpn, popOf_scale, p2 c]
    · unfold shareOf widthOf
      ring
    · have := mem_cells.mp hc
      cases c with
      | cont k idx e => exact ⟨this.2.1, this.2.2.1, by have := this.2.2.2; omega⟩
      | disc i => exact this
  rw [table_append]
  unfold candidates
  rw [List.filter_append, List.filter_append, filter_cells (f := popOf pops.g) false 1 _ _ _ _ G1 G2 G3]
  congr 1
  rw [← filter_cells (f := popOf pops.n) true 0 _ _ pops.jmax1 _ N1 N2 N3]
  by_cases hs : n0.status = true
  · rw [if_pos hs]
  · rw [if_neg hs]
    have : pops.n = [] := by
      rw [hpn, hnt, if_neg (by simp [nOpen, hs])]
      rfl
    rw [this]
    symm
    rw [List.filter_eq_nil_iff.mpr]
    · rfl
    · intro y hy
      obtain ⟨c, -, rfl⟩ := List.mem_map.mp hy
      simp [popOf]

/-! ## A closed neutron channel -/

theorem strength_closed {maxJ : Nat} {w : ℝ} {ph : Phys ℝ} {p j : Int} (hs : n0.status = false) (c : Cell) :
    strength maxJ w n0 n1 m0 m1 ph p j (true, c) = 0 := by
  cases c with
  | cont k idx even => simp [strength, hs]
  | disc i =>
    unfold strength
    simp only []
    split
    · simp [hs]
    · rfl

theorem strength_photon {maxJ : Nat} {w : ℝ} {ph : Phys ℝ} {p j : Int} (a1 : Nuc ℝ) (b1 : Mesh ℝ) (c : Cell) :
    strength maxJ w n0 n1 m0 m1 ph p j (false, c) = strength maxJ w n0 a1 m0 b1 ph p j (false, c) := by
  cases c <;> rfl

theorem sumStates_zero {maxJ a b nlev : Nat} {f : Cell → ℝ} (hf : ∀ c, f c = 0) : sumStates maxJ a b nlev f = 0 := by
  unfold sumStates
  simp [hf]

theorem width_closed (hs : n0.status = false) (a1 : Nuc ℝ) (b1 : Mesh ℝ) : widthOf par m n0 n1 m0 m1 = widthOf par m n0 a1 m0 b1 := by
  unfold widthOf photonWidth neutronWidth
  congr 1
  rw [sumStates_zero fun c => strength_closed hs c, sumStates_zero fun c => strength_closed hs c]

theorem table_closed (hs : n0.status = false) (a1 : Nuc ℝ) (b1 : Mesh ℝ) :
    ((table par m n0 n1 m0 m1).filter fun y => decide (0 < y.2)) = (table par m n0 a1 m0 b1).filter fun y => decide (0 < y.2) := by
  rw [table_append, table_append, List.filter_append, List.filter_append]
  congr 1
  · congr 1
    apply List.map_congr_left
    intro c _
    unfold shareOf
    rw [strength_photon a1 b1, width_closed hs a1 b1]
  · rw [List.filter_eq_nil_iff.mpr, List.filter_eq_nil_iff.mpr]
    all_goals
      intro y hy
      obtain ⟨c, -, rfl⟩ := List.mem_map.mp hy
      simp [shareOf, strength_closed hs]

theorem land_closed (a1 : Nuc ℝ) (b1 : Mesh ℝ) (c : Cell) :
    land par m n0 n1 m0 m1 (false, c) = land par m n0 a1 m0 b1 (false, c) := by
  cases c <;> rfl

/-! ## The pass is the kernel -/

/-- What the law of a pass needs. -/
structure Good (par : Par ℝ) (m : MCPoint ℝ) (n0 n1 : Nuc ℝ) (m0 m1 : Mesh ℝ) : Prop where
  sites : sites par m = some ((n0, m0), (n1, m1))
  spins : 0 < par.maxJ
  width : 0 ≤ par.w
  phys : PhysNonneg (par.phys m.n m.e)
  pos : 0 < widthOf par m n0 n1 m0 m1

theorem Good.nonneg (h : Good par m n0 n1 m0 m1) : ∀ y ∈ table par m n0 n1 m0 m1, 0 ≤ y.2 := by
  intro y hy
  obtain ⟨a, -, rfl⟩ := List.mem_map.mp hy
  exact div_nonneg (strength_nonneg h.width h.phys a) h.pos.le

theorem Good.sum (h : Good par m n0 n1 m0 m1) : ((table par m n0 n1 m0 m1).map (·.2)).sum = 1 := by
  rw [table_append, List.map_append, List.sum_append, List.map_map, List.map_map]
  show ((cells 1 m0.ncont ((par.maxJ : Int) - 1) n0.levels.length).map fun c => shareOf par m n0 n1 m0 m1 (false, c)).sum +
    ((cells 0 m1.ncont ((par.maxJ : Int) - 1) n1.levels.length).map fun c => shareOf par m n0 n1 m0 m1 (true, c)).sum = 1
  unfold shareOf
  rw [sum_div, sum_div, sum_cells _ _ _ _ h.spins, sum_cells _ _ _ _ h.spins, ← add_div]
  exact div_self h.pos.ne'

/-- The sites of a pass: those of the pass itself unless the neutron channel is closed. -/
theorem good_of (h : Pass par st m n0 n1 m0 m1) : ∃ a1 b1, Good par m n0 a1 m0 b1 ∧ (n0.status = true → a1 = n1 ∧ b1 = m1) := by
  by_cases hs : n0.status = true
  · obtain ⟨g1, g2⟩ := h.daughter hs
    exact ⟨n1, m1, ⟨by simp [HF.sites, h.parent, h.grid0, hs, g1, g2], h.spins, h.width, h.phys, width_pos h⟩, fun _ => ⟨rfl, rfl⟩⟩
  · refine ⟨n0, m0, ⟨by simp [HF.sites, h.parent, h.grid0, hs], h.spins, h.width, h.phys, ?_⟩, fun h => absurd h hs⟩
    rw [width_closed (by simpa using hs) n1 m1]
    exact width_pos h

theorem post_land (h : Pass par st m n0 n1 m0 m1) (a : Bool × Cell)
    (hx : ∃ x, (if a.1 then cellPoint n0.next n1 m1 a.2 else cellPoint m.n n0 m0 a.2) = some x) (s : List ℝ) :
    post par m n0 n1 m0 m1 a s = land par m n0 n1 m0 m1 a s := by
  have e0 : n0.levels.getLast? = some (n0.levels.getLast h.levels0) := List.getLast?_eq_getLast_of_ne_nil h.levels0
  have e1 : n1.levels.getLast? = some (n1.levels.getLast h.levels1) := List.getLast?_eq_getLast_of_ne_nil h.levels1
  have f0 : elmax n0.levels = (n0.levels.getLast h.levels0).energy := by simp [elmax, e0]
  have f1 : elmax n1.levels = (n1.levels.getLast h.levels1).energy := by simp [elmax, e1]
  obtain ⟨b, c⟩ := a
  cases c with
  | disc i =>
    obtain ⟨x, hx⟩ := hx
    cases b with
    | false =>
      simp only [Bool.false_eq_true, if_false, cellPoint] at hx
      cases hl : n0.levels[i]? with
      | none => rw [hl] at hx; cases hx
      | some l =>
        rw [post_disc false i (l := l) (by simpa using hl) h.levels0]
        simp [land, hl, Rnd.get]
    | true =>
      simp only [if_true, cellPoint] at hx
      cases hl : n1.levels[i]? with
      | none => rw [hl] at hx; cases hx
      | some l =>
        rw [post_disc true i (l := l) (by simpa using hl) h.levels0]
        simp [land, hl, Rnd.get]
  | cont k idx even =>
    cases s with
    | nil =>
      rw [post_nil b k idx even h.levels0 h.levels1]
      cases b <;> rfl
    | cons r s =>
      cases b with
      | true =>
        rw [post_neutron h.other k idx even e1, ← f1]
        rfl
      | false =>
        rw [post_photon k idx even e0, ← f0]
        show _ = (if moved m0 (elmax n0.levels) k r < elmax n0.levels + par.cut then
          (forced n0.levels m.p m.j >>= fun i => Rnd.get (n0.levels[i]?.map (levelPoint m.n i)) : Rnd ℝ (MCPoint ℝ))
          else pure (ofKey (m.n, if even then 1 else -1, idx, k, false) (moved m0 (elmax n0.levels) k r))) s
        split <;> rfl

/-- A pass with its history, for numbers between zero and one. -/
theorem step_sim (h : Pass par st m n0 n1 m0 m1) : ∃ jm : Nat → Int, ∀ s : List ℝ, (∀ r ∈ s, 0 < r ∧ r < 1) →
    contStep par st m s =
      (step par m >>= fun x => pure (⟨st.hs ++ [emission m n0 x], st.ts, jm⟩, x) : Rnd ℝ (St ℝ × MCPoint ℝ)) s := by
  obtain ⟨pops, jm, hp, hnil, hrun⟩ := pass_run h
  obtain ⟨a1, b1, hg, hst⟩ := good_of h
  have hstep : step par m = body par m n0 a1 m0 b1 := by unfold step; rw [hg.sites]
  refine ⟨jm, fun s hs => ?_⟩
  cases s with
  | nil =>
    rw [hnil, hstep]
    rfl
  | cons r s =>
    have hr := hs r (by simp)
    obtain ⟨a, ha, hx, h3⟩ := hrun (fun _ => r) (fun _ => hr)
    rw [h3 s]
    replace ha : firstReach r 0 (candidates n0 n1 m0 m1 pops) = some a := ha
    have ht : firstReach r 0 (table par m n0 a1 m0 b1) = some a := by
      rw [candidates_table h hp hr.1] at ha
      by_cases hss : n0.status = true
      · obtain ⟨rfl, rfl⟩ := hst hss
        exact ha
      · rw [first_pos _ 0 r hg.nonneg hr.1, table_closed (by simpa using hss) n1 m1, ← first_pos _ 0 r (table_nonneg h) hr.1]
        exact ha
    have hland : land par m n0 a1 m0 b1 a = land par m n0 n1 m0 m1 a := by
      by_cases hss : n0.status = true
      · obtain ⟨rfl, rfl⟩ := hst hss
        rfl
      · obtain ⟨l1, y, l2, e, -, -⟩ := firstReach_some ha
        have hm : (a, y) ∈ candidates n0 n1 m0 m1 pops := by rw [e]; simp
        have hb : a.1 = false := by
          unfold candidates at hm
          rw [if_neg hss, List.append_nil] at hm
          obtain ⟨_, _, h4⟩ := List.mem_map.mp hm
          rw [← (Prod.mk.inj h4).1]
        obtain ⟨b, c⟩ := a
        simp only at hb
        subst hb
        exact land_closed n1 m1 c
    have hb : step par m (r :: s) = land par m n0 n1 m0 m1 a s := by
      rw [hstep]
      unfold body
      rw [Rnd.bind_run, Rnd.draw_cons]
      simp only [ht, hland]
    rw [Rnd.bind_run, Rnd.bind_run, hb, post_land h a hx]

/-! ## Laws -/

section Laws

variable {α β : Type} [MeasurableSpace α] [MeasurableSpace β] [Nonempty β]

theorem bind_assoc3 {α β δ : Type} (x : Rnd ℝ α) (f : α → Rnd ℝ β) (g : β → Rnd ℝ δ) :
    (x >>= f) >>= g = x >>= fun a => f a >>= g := by
  funext s
  rw [Rnd.bind_run, Rnd.bind_run, Rnd.bind_run]
  cases x s <;> rfl

theorem measurable_event {f : Rnd ℝ α} (hf : SM f) {S : Set α} (hS : MeasurableSet S) :
    MeasurableSet {ω | ∃ n a, f (pre ω n) = .ok (a, []) ∧ a ∈ S} := by
  have : {ω | ∃ n a, f (pre ω n) = .ok (a, []) ∧ a ∈ S} = ⋃ n, {ω | ∃ a ∈ S, outAt f n ω = some a} := by
    ext ω
    simp only [Set.mem_ofPred_eq, Set.mem_iUnion, outAt_eq, At]
    exact ⟨fun ⟨n, a, h1, h2⟩ => ⟨n, a, h2, h1⟩, fun ⟨n, a, h1, h2⟩ => ⟨n, a, h2, h1⟩⟩
  rw [this]
  exact MeasurableSet.iUnion fun n => hf n S hS

theorem shift_cons (r : ℝ) (ω : ℕ → ℝ) : shift 1 (cons r ω) = ω := by
  funext k
  show cons r ω (1 + k) = ω k
  rw [show 1 + k = k + 1 by omega]
  rfl

/-- One number followed by a computation that depends on it. -/
theorem probIn_draw {g : ℝ → Rnd ℝ β} (hg : JM g) {S : Set β} (hS : MeasurableSet S) :
    probIn (Rnd.draw >>= g) S = ∫⁻ r, probIn (g r) S ∂unif := by
  have hm := measurable_event (f := Rnd.draw >>= g) (sm_bind Isotropy.local_draw (fun n => (JM.draw (γ := Unit)).fix () n) hg) hS
  show stream _ = _
  rw [stream_eq hm]
  apply lintegral_congr
  intro r
  unfold probIn
  congr 1
  ext ω
  simp only [Set.mem_ofPred_eq]
  constructor
  · rintro ⟨n, a, h1, h2⟩
    cases n with
    | zero => rw [pre_zero] at h1; cases h1
    | succ n =>
      rw [pre_succ, shift_cons] at h1
      exact ⟨n, a, h1, h2⟩
  · rintro ⟨n, a, h1, h2⟩
    refine ⟨n + 1, a, ?_, h2⟩
    rw [pre_succ, shift_cons]
    exact h1

theorem probIn_undef (S : Set α) : probIn (Rnd.undef : Rnd ℝ α) S = 0 := by
  unfold probIn
  have : {ω : ℕ → ℝ | ∃ n a, (Rnd.undef : Rnd ℝ α) (pre ω n) = .ok (a, []) ∧ a ∈ S} = ∅ := by
    ext ω
    simp
  rw [this, measure_empty]

theorem jm_nat {g : Nat → Rnd ℝ β} (h : ∀ i, SM (g i)) : JM g :=
  JM.cases (f := fun i _ => g i) (k := fun i : Nat => i) (fun i => measurableSet_singleton i) fun i => JM.const (h i)

theorem forcedTo_none {levels : List (Level ℝ)} {p J : Int} {i : Nat} (h : levels[i]? = none) : forcedTo levels p J i = 0 := by
  unfold forcedTo FirstClosest
  simp [h]

/-- A forced transition followed by a computation that depends on its end. -/
theorem probIn_forced (levels : List (Level ℝ)) (p j : Int) (c : Nat) {g : MCPoint ℝ → Rnd ℝ β} (hl : ∀ x, Local (g x)) (hg : JM g)
    {S : Set β} (hS : MeasurableSet S) :
    probIn ((forced levels p j >>= fun i => Rnd.get (levels[i]?.map (levelPoint c i))) >>= g) S =
      ∑ i ∈ Finset.range levels.length, ENNReal.ofReal (forcedTo levels p (2 * j) i) *
        levelValue levels c (fun x => probIn (g x) S) i := by
  have hv : ∀ i, probIn ((Rnd.get (levels[i]?.map (levelPoint c i)) : Rnd ℝ (MCPoint ℝ)) >>= g) S = levelValue levels c (fun x => probIn (g x) S) i := by
    intro i
    unfold levelValue
    cases levels[i]? with
    | none => exact probIn_undef S
    | some l => rfl
  rw [bind_assoc3, probIn_bind (local_forced _ _ _) (sm_forced _ _ _) (fun i => local_bind (local_get' _) hl)
    (jm_nat fun i => sm_bind (local_get' _) (sm_get _) hg) hS, lintegral_countable']
  rw [tsum_eq_sum (s := Finset.range levels.length)]
  · apply Finset.sum_congr rfl
    intro i _
    rw [hv, law_apply (local_forced _ _ _) (sm_forced _ _ _) (measurableSet_singleton i), mul_comm, ← prob_forced]
    congr 1
    unfold probIn prob
    congr 1
    ext ω
    simp
  · intro i hi
    have : levels[i]? = none := by
      rw [Finset.mem_range, not_lt] at hi
      exact List.getElem?_eq_none hi
    rw [hv]
    simp [levelValue, this]

theorem probIn_land {g : MCPoint ℝ → Rnd ℝ β} (hl : ∀ x, Local (g x)) (hg : JM g) {S : Set β} (hS : MeasurableSet S) (a : Bool × Cell) :
    probIn (land par m n0 n1 m0 m1 a >>= g) S = stateValue par.cut m n0 n1 m0 m1 (fun x => probIn (g x) S) a := by
  obtain ⟨b, c⟩ := a
  cases c with
  | disc i =>
    cases b
    · rw [land, stateValue]
      show probIn ((Rnd.get (n0.levels[i]?.map (levelPoint m.n i)) : Rnd ℝ (MCPoint ℝ)) >>= g) S = levelValue _ _ _ _
      unfold levelValue
      cases n0.levels[i]? with
      | none => exact probIn_undef S
      | some l => rfl
    · rw [land, stateValue]
      show probIn ((Rnd.get (n1.levels[i]?.map (levelPoint n0.next i)) : Rnd ℝ (MCPoint ℝ)) >>= g) S = levelValue _ _ _ _
      unfold levelValue
      cases n1.levels[i]? with
      | none => exact probIn_undef S
      | some l => rfl
  | cont k idx even =>
    cases b
    · rw [land, stateValue]
      show probIn ((Rnd.draw >>= fun r => if moved m0 (elmax n0.levels) k r < elmax n0.levels + par.cut then
        (forced n0.levels m.p m.j >>= fun i => Rnd.get (n0.levels[i]?.map (levelPoint m.n i)) : Rnd ℝ (MCPoint ℝ))
        else pure (ofKey (m.n, if even then 1 else -1, idx, k, false) (moved m0 (elmax n0.levels) k r))) >>= g) S = overBin _ _ _
      have hm := measurable_moved m0 (elmax n0.levels) k
      rw [bind_assoc3, probIn_draw _ hS]
      · unfold overBin
        apply lintegral_congr
        intro r
        by_cases hc : moved m0 (elmax n0.levels) k r < elmax n0.levels + par.cut
        · rw [if_pos hc, probIn_forced _ _ _ _ hl hg hS]
          exact (if_pos hc).symm
        · rw [if_neg hc]
          exact (if_neg hc).symm
      · refine JM.bind (f := fun r => if moved m0 (elmax n0.levels) k r < elmax n0.levels + par.cut then
          (forced n0.levels m.p m.j >>= fun i => Rnd.get (n0.levels[i]?.map (levelPoint m.n i)) : Rnd ℝ (MCPoint ℝ))
          else pure (ofKey (m.n, if even then 1 else -1, idx, k, false) (moved m0 (elmax n0.levels) k r)))
          (g := fun y : ℝ × MCPoint ℝ => g y.2) ?_ ?_ (hg.comp measurable_snd)
        · intro r
          split
          · exact local_bind (local_forced _ _ _) fun _ => local_get' _
          · exact local_pure _
        · exact JM.ite (measurableSet_lt hm measurable_const) (JM.const (sm_fall _ _ _ _)) (JM.pure (measurable_point _ hm))
    · rw [land, stateValue]
      show probIn ((Rnd.draw >>= fun r => pure (ofKey (n0.next, if even then 1 else -1, idx, k, false)
        (moved m1 (elmax n1.levels) k r)) : Rnd ℝ (MCPoint ℝ)) >>= g) S = overBin _ _ _
      have hm := measurable_moved m1 (elmax n1.levels) k
      rw [bind_assoc3, probIn_draw _ hS]
      · rfl
      · exact hg.comp (measurable_point _ hm)

theorem local_land (a : Bool × Cell) : Local (land par m n0 n1 m0 m1 a) := by
  obtain ⟨b, c⟩ := a
  cases c with
  | disc i => cases b <;> exact local_get' _
  | cont k idx even =>
    cases b
    · refine local_bind Isotropy.local_draw fun r => ?_
      split
      · exact local_bind (local_forced _ _ _) fun _ => local_get' _
      · exact local_pure _
    · exact local_bind Isotropy.local_draw fun r => local_pure _

theorem local_step : Local (step par m) := by
  unfold step
  split
  · exact local_undef
  · refine local_bind Isotropy.local_draw fun r => ?_
    split
    · exact local_land _
    · exact local_undef

theorem sum_values (maxJ a b nlev : Nat) (hJ : 0 < maxJ) (f : Cell → ENNReal) :
    ((cells a b ((maxJ : Int) - 1) nlev).map f).sum = sumValues maxJ a b nlev f := by
  unfold cells sumValues
  rw [List.map_append, List.sum_append, List.map_map]
  congr 1
  rw [show ((maxJ : Int) - 1 + 1).toNat = maxJ by omega]
  rw [List.map_flatMap, List.flatMap_def, List.sum_flatten, List.map_map]
  congr 1
  apply List.map_congr_left
  intro k _
  show ((((List.range maxJ).flatMap fun j : Nat => [Cell.cont k j true, Cell.cont k j false])).map f).sum = _
  rw [List.map_flatMap, List.flatMap_def, List.sum_flatten, List.map_map]
  congr 1
  apply List.map_congr_left
  intro i _
  simp

theorem sum_mul_right {ι : Type} (f : ι → ENNReal) (W : ENNReal) (l : List ι) : (l.map fun c => f c / W).sum = (l.map f).sum / W := by
  induction l with
  | nil => simp
  | cons a l ih => rw [List.map_cons, List.map_cons, List.sum_cons, List.sum_cons, ih, ENNReal.add_div]

theorem passMean_table (h : Good par m n0 n1 m0 m1) (φ : MCPoint ℝ → ENNReal) : passMean par φ m =
    ((table par m n0 n1 m0 m1).map fun y => ENNReal.ofReal y.2 * stateValue par.cut m n0 n1 m0 m1 φ y.1).sum := by
  have e2 : ∀ a, ENNReal.ofReal (shareOf par m n0 n1 m0 m1 a) * stateValue par.cut m n0 n1 m0 m1 φ a =
      ENNReal.ofReal (strength par.maxJ par.w n0 n1 m0 m1 (par.phys m.n m.e) m.p m.j a) *
        stateValue par.cut m n0 n1 m0 m1 φ a / ENNReal.ofReal (widthOf par m n0 n1 m0 m1) := by
    intro a
    rw [shareOf, ENNReal.ofReal_div_of_pos h.pos, div_eq_mul_inv, div_eq_mul_inv]
    ring
  rw [table_append, List.map_append, List.sum_append, List.map_map, List.map_map]
  simp only [Function.comp_def, e2]
  rw [sum_mul_right, sum_mul_right, sum_values _ _ _ _ h.spins, sum_values _ _ _ _ h.spins, ← ENNReal.add_div]
  unfold passMean
  rw [h.sites]
  rfl

/-- Law of a pass followed by a computation that depends on its end. -/
theorem probIn_step (h : Good par m n0 n1 m0 m1) {g : MCPoint ℝ → Rnd ℝ β} (hl : ∀ x, Local (g x)) (hg : JM g) {S : Set β}
    (hS : MeasurableSet S) : probIn (step par m >>= g) S = passMean par (fun x => probIn (g x) S) m := by
  have hland : ∀ a, SM (land par m n0 n1 m0 m1 a) := fun a n =>
    (jm_land (par := par) (keyOf m) n0 n1 (m0 := fun _ => m0) (m1 := fun _ => m1) (fun _ => measurable_const) (fun _ => measurable_const) a).fix m.e n
  have hstep : step par m = body par m n0 n1 m0 m1 := by unfold step; rw [h.sites]
  have e : {ω | ∃ n b, (step par m >>= g) (pre ω n) = .ok (b, []) ∧ b ∈ S} =
      {ω | ∃ a, firstReach (ω 0) 0 (table par m n0 n1 m0 m1) = some a ∧
        shift 1 ω ∈ {ω | ∃ n b, (land par m n0 n1 m0 m1 a >>= g) (pre ω n) = .ok (b, []) ∧ b ∈ S}} := by
    ext ω
    rw [hstep]
    unfold body
    rw [bind_assoc3]
    simp only [Set.mem_ofPred_eq]
    constructor
    · rintro ⟨n, b, h1, h2⟩
      cases n with
      | zero => rw [pre_zero] at h1; cases h1
      | succ n =>
        rw [pre_succ, Rnd.bind_run, Rnd.draw_cons] at h1
        simp only [] at h1
        cases ha : firstReach (ω 0) 0 (table par m n0 n1 m0 m1) with
        | none => rw [ha] at h1; cases h1
        | some a =>
          rw [ha] at h1
          exact ⟨a, rfl, n, b, h1, h2⟩
    · rintro ⟨a, ha, n, b, h1, h2⟩
      refine ⟨n + 1, b, ?_, h2⟩
      rw [pre_succ, Rnd.bind_run, Rnd.draw_cons]
      simp only [ha]
      exact h1
  show stream _ = _
  rw [e, select_gen _ (fun a => measurable_event (sm_bind (local_land a) (hland a) hg) hS) _ h.nonneg h.sum.le]
  show ((table par m n0 n1 m0 m1).map fun y => ENNReal.ofReal y.2 * probIn (land par m n0 n1 m0 m1 y.1 >>= g) S).sum = _
  rw [passMean_table h]
  simp only [probIn_land hl hg hS]

end Laws

end CGMF.HF

import Verif.Proofs.WalkLaw

/-! # Decays of a chain without dead ends -/

namespace CGMF.HF

open CGMF.Law CGMF.MC CGMF.Grid CGMF.Props

variable {par : Par ℝ} {E : ℝ} {m : MCPoint ℝ}

theorem setup_exists {w el e : ℝ} {N : Nat} (h : ∃ k < N, e < w * ((k : ℝ) + 1 / 2)) : ∃ mm, setup w N el e = .ok mm := by
  cases hs : setup w N el e with
  | ok mm => exact ⟨mm, rfl⟩
  | exit =>
    obtain ⟨k, h1, h2⟩ := h
    exact absurd (setup_exit_iff.mp hs k h1) (not_le.mpr h2)
  | ub => exact absurd hs setup_not_ub

/-- A bin of the continuum does not reach above the excitation energy. -/
theorem moved_le {w el e : ℝ} {N : Nat} {mm : Mesh ℝ} (hw : 0 < w) (hel : 0 ≤ el) (h : setup w N el e = .ok mm) {k : Nat}
    (hk : k < mm.ncont) {r : ℝ} (h0 : 0 < r) (h1 : r < 1) : moved mm el k r ≤ e := by
  obtain ⟨f, -, -, hlow, -, hexc, hn⟩ := setup_ok h
  obtain ⟨c1, c2, -, -, -⟩ := ncontOf_spec (E := e) (f := f) (exc := excOf w e (f + 1)) hel (excOf_last w e (by omega))
  rw [← hn] at c1 c2
  have hf : 0 < f := by omega
  have he : 0 < e := by
    have := hlow 0 hf
    have : 0 < w * ((0 : Nat) + 1 / 2 : ℝ) := by push_cast; linarith
    linarith
  have hle : el ≤ e := by
    by_cases hz : el = 0
    · rw [hz]; exact he.le
    · exact (c2 (by omega) hz).le
  have hex : ∀ i, mm.exc i ≤ e := by
    intro i
    rw [hexc]
    by_cases hi : i + 1 < f + 1
    · rw [excOf_eq w e hi]
      have : (0 : ℝ) ≤ i * w := mul_nonneg (Nat.cast_nonneg i) hw.le
      linarith
    · rw [excOf_last w e (by omega)]
      exact he.le
  have ht : binTop mm k ≤ e := by
    unfold binTop
    split
    · exact hex 0
    · have := hex (k - 1); have := hex k; linarith
  have hb : binBottom mm el k ≤ e := by
    unfold binBottom
    apply max_le _ hle
    have := hex (k + 1); have := hex k; linarith
  unfold moved
  nlinarith

/-- Some nucleus with the given kind of spins. -/
theorem dummy (i : Int) (hi : i = 0 ∨ i = 1) : ∃ n1 : Nuc ℝ, n1.levels ≠ [] ∧ i0 n1 = i ∧
    ∀ (k : Nat) (l : Level ℝ), n1.levels[k]? = some l → l.parity = 1 ∨ l.parity = -1 := by
  rcases hi with rfl | rfl
  · refine ⟨⟨0, 0, [⟨0, 0, 1, 0, []⟩], 0, false, 0⟩, by simp, by simp [i0], ?_⟩
    intro k l hl
    rcases k with _ | k
    · cases hl; exact .inl rfl
    · cases hl
  · refine ⟨⟨0, 0, [⟨0, 1, 1, 0, []⟩], 0, false, 0⟩, by simp, by simp [i0], ?_⟩
    intro k l hl
    rcases k with _ | k
    · cases hl; exact .inl rfl
    · cases hl

theorem chained_pass (h : Chained par E) {x : MCPoint ℝ} (hx : InRange par E x) : ∃ n0 n1 m0 m1, Pass par blank x n0 n1 m0 m1 := by
  obtain ⟨⟨n0, hn0⟩, hp, hj0, hj1, he⟩ := hx
  have hm := List.mem_of_getElem? hn0
  have hgrid : ∀ e ≤ E, ∃ k < par.nbin, e < par.w * ((k : ℝ) + 1 / 2) := by
    intro e hle
    obtain ⟨k, h1, h2⟩ := h.grid
    exact ⟨k, h1, lt_of_le_of_lt hle h2⟩
  obtain ⟨m0, hm0⟩ := setup_exists (el := elmax n0.levels) (hgrid x.e he)
  have hneut : ∀ n1 m1, 0 ≤ neutronWidth par.maxJ par.w n0 n1 m0 m1 (par.phys x.n x.e) x.p x.j := fun n1 m1 =>
    sumStates_nonneg fun c => strength_nonneg h.width.le (h.phys _ _) _
  by_cases hs : n0.status = true
  · obtain ⟨hsn, n1, hn1, hi⟩ := h.daughter n0 hm hs
    have hm1 := List.mem_of_getElem? hn1
    obtain ⟨m1, hgm1⟩ := setup_exists (el := elmax n1.levels) (hgrid (x.e - n0.sn) (by linarith))
    refine ⟨n0, n1, m0, m1, ⟨h.spins, h.width.le, hn0, hm0, fun _ => ⟨hn1, hgm1⟩, h.other _ _ hn0, (h.levels n0 hm).1, (h.levels n1 hm1).1,
      ⟨hj0, hj1⟩, h.phys _ _, ⟨hp, fun i l hl => (h.level n0 hm l (List.mem_of_getElem? hl)).1, hi,
        fun i l hl => (h.level n1 hm1 l (List.mem_of_getElem? hl)).2⟩, h.room, ?_⟩⟩
    have := h.photon x.n n0 n1 m0 m1 x.p x.j x.e hn0 hp hj0 hj1 he hm0
    exact ne_of_gt (add_pos_of_pos_of_nonneg this (hneut _ _))
  · obtain ⟨n1, hl1, hi1, hpar⟩ := dummy (1 - i0 n0) (by have := i0_cases n0; omega)
    refine ⟨n0, n1, m0, m0, ⟨h.spins, h.width.le, hn0, hm0, fun h => absurd h hs, h.other _ _ hn0, (h.levels n0 hm).1, hl1,
      ⟨hj0, hj1⟩, h.phys _ _, ⟨hp, fun i l hl => (h.level n0 hm l (List.mem_of_getElem? hl)).1, hi1, hpar⟩, h.room, ?_⟩⟩
    have := h.photon x.n n0 n1 m0 m0 x.p x.j x.e hn0 hp hj0 hj1 he hm0
    exact ne_of_gt (add_pos_of_pos_of_nonneg this (hneut _ _))

theorem land_range (h : Chained par E) {x : MCPoint ℝ} (hx : InRange par E x) {n0 n1 : Nuc ℝ} {m0 m1 : Mesh ℝ}
    (hn0 : par.chain[x.n]? = some n0) (hs0 : setup par.w par.nbin (elmax n0.levels) x.e = .ok m0)
    (hd : n0.status = true → par.chain[n0.next]? = some n1 ∧ setup par.w par.nbin (elmax n1.levels) (x.e - n0.sn) = .ok m1)
    {a : Bool × Cell} (ha : a ∈ labels par.maxJ m0.ncont m1.ncont n0.levels.length n1.levels.length) (hst : a.1 = true → n0.status = true)
    {s s' : List ℝ} (hin : ∀ r ∈ s, 0 < r ∧ r < 1) {y : MCPoint ℝ} (hl : land par x n0 n1 m0 m1 a s = .ok (y, s'))
    (hy : y.disc = false) : InRange par E y := by
  have hlev : ∀ (o : Option (Level ℝ)) c i s s', (Rnd.get (o.map (levelPoint c i)) : Rnd ℝ (MCPoint ℝ)) s = .ok (y, s') → False := by
    intro o c i s s' h1
    obtain ⟨h2, -⟩ := Rnd.get_ok.mp h1
    obtain ⟨l, -, rfl⟩ := Option.map_eq_some_iff.mp h2
    cases hy
  obtain ⟨b, c⟩ := a
  cases c with
  | disc i =>
    cases b
    · exact absurd hl fun hl => hlev _ _ _ _ _ hl
    · exact absurd hl fun hl => hlev _ _ _ _ _ hl
  | cont k idx even =>
    have hpar : (if even = true then (1 : Int) else -1) = 1 ∨ (if even = true then (1 : Int) else -1) = -1 := by
      cases even <;> simp
    cases s with
    | nil => cases b <;> cases hl
    | cons r s =>
      have hr := hin r (by simp)
      cases b
      · have hc : Cell.cont k idx even ∈ cells 1 m0.ncont ((par.maxJ : Int) - 1) n0.levels.length := by
          unfold labels at ha
          simpa using ha
        obtain ⟨-, hk, hi0, hi1⟩ := mem_cells.mp hc
        rw [land, Rnd.bind_run, Rnd.draw_cons] at hl
        simp only [] at hl
        by_cases hcut : moved m0 (elmax n0.levels) k r < elmax n0.levels + par.cut
        · rw [if_pos hcut] at hl
          obtain ⟨i, s1, -, h2⟩ := Rnd.bind_ok.mp hl
          exact absurd h2 fun h2 => hlev _ _ _ _ _ h2
        · rw [if_neg hcut] at hl
          obtain ⟨rfl, -⟩ := Rnd.pure_ok.mp hl
          refine ⟨⟨n0, hn0⟩, hpar, hi0, by show idx < _; omega, ?_⟩
          exact le_trans (moved_le h.width (h.levels n0 (List.mem_of_getElem? hn0)).2 hs0 hk hr.1 hr.2) hx.2.2.2.2
      · have hc : Cell.cont k idx even ∈ cells 0 m1.ncont ((par.maxJ : Int) - 1) n1.levels.length := by
          unfold labels at ha
          simpa using ha
        obtain ⟨-, hk, hi0, hi1⟩ := mem_cells.mp hc
        have hstat := hst rfl
        obtain ⟨hn1, hs1⟩ := hd hstat
        have hsn := (h.daughter n0 (List.mem_of_getElem? hn0) hstat).1
        rw [land, Rnd.bind_run, Rnd.draw_cons] at hl
        obtain ⟨rfl, -⟩ := Rnd.pure_ok.mp hl
        refine ⟨⟨n1, hn1⟩, hpar, hi0, by show idx < _; omega, ?_⟩
        have h1 := moved_le h.width (h.levels n1 (List.mem_of_getElem? hn1)).2 hs1 hk hr.1 hr.2
        have h2 := hx.2.2.2.2
        show moved m1 (elmax n1.levels) k r ≤ E
        linarith

theorem reached_range (h : Chained par E) (hm : InRange par E m) : ∀ x, Reached par m x → x.disc = false → InRange par E x := by
  intro x hx
  induction hx with
  | start => intro _; exact hm
  | @pass x y st st' s hr hxd hin hstep ih =>
    intro hyd
    have hxr := ih hxd
    obtain ⟨n0, n1, m0, m1, hp⟩ := chained_pass h hxr
    have hroom : st.hs.length + 1 < par.cap := by
      obtain ⟨n0', m0, d, pops, x1, x2, jm, s1, s2, s3, s4, s5, -, -, -, -, -, -, -, -, -, -, h2⟩ := contStep_ok hstep
      exact (store_ok h2).2.1
    obtain ⟨jm, hsim⟩ := step_sim (hp.other_state (st' := st) hroom)
    rw [hsim s hin] at hstep
    obtain ⟨y', s1, h1, h2⟩ := Rnd.bind_ok.mp hstep
    obtain ⟨h3, h4⟩ := Rnd.pure_ok.mp h2
    have h3 := (Prod.mk.inj h3).2
    subst h3
    obtain ⟨a1, b1, hg, hst⟩ := good_of hp
    have hb : step par x = body par x n0 a1 m0 b1 := by unfold step; rw [hg.sites]
    rw [hb] at h1
    unfold body at h1
    obtain ⟨r, s2, h5, h6⟩ := Rnd.bind_ok.mp h1
    have h7 := Rnd.draw_ok.mp h5
    subst h7
    cases hf : firstReach r 0 (table par x n0 a1 m0 b1) with
    | none => rw [hf] at h6; cases h6
    | some a =>
      rw [hf] at h6
      have hr0 := hin r (by simp)
      rw [first_pos _ 0 r hg.nonneg hr0.1] at hf
      obtain ⟨l1, w, l2, e, -, -⟩ := firstReach_some hf
      have hmem : (a, w) ∈ (table par x n0 a1 m0 b1).filter fun y => decide (0 < y.2) := by rw [e]; simp
      obtain ⟨hmem, hw⟩ := List.mem_filter.mp hmem
      obtain ⟨a', ha', e'⟩ := List.mem_map.mp hmem
      obtain ⟨rfl, rfl⟩ := Prod.mk.inj e'
      refine land_range h hxr hp.parent hp.grid0 ?_ ha' ?_ (fun r hr => hin r (by simp [hr])) h6 hyd
      · intro hs
        obtain ⟨rfl, rfl⟩ := hst hs
        exact hp.daughter hs
      · intro ht
        by_contra hns
        obtain ⟨b, c⟩ := a'
        simp only at ht
        subst ht
        have : shareOf par x n0 a1 m0 b1 (true, c) = 0 := by
          unfold shareOf
          rw [strength_closed (by simpa using hns), zero_div]
        rw [this] at hw
        simp at hw

end CGMF.HF

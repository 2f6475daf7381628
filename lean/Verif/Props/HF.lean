import Verif.Proofs.Popinit
import Verif.Proofs.Safe
import Verif.Props.Demo
import Mathlib.Tactic.LinearCombination

/-!
# C20, C21, C30, C31, C33, C34: one decay step and the start of the decay
-/

namespace CGMF.Props

open CGMF CGMF.Grid CGMF.HF CGMF.MC

variable {K : Type} [Field K] [LinearOrder K] [IsStrictOrderedRing K]

/-! ## C20 -/

theorem candidates_nonneg {n0 n1 : Nuc K} {m0 m1 : Mesh K} {pops : Pops K} (hg : ∀ t ∈ pops.g, 0 ≤ t.2)
    (hn : ∀ t ∈ pops.n, 0 ≤ t.2) : ∀ t ∈ candidates n0 n1 m0 m1 pops, 0 ≤ t.2 := by
  intro t ht
  unfold candidates at ht
  rcases List.mem_append.mp ht with ht | ht
  · obtain ⟨c, -, rfl⟩ := List.mem_map.mp ht
    exact popOf_nonneg hg c
  · split at ht
    · obtain ⟨c, -, rfl⟩ := List.mem_map.mp ht
      exact popOf_nonneg hn c
    · cases ht

theorem candidates_cell {n0 n1 : Nuc K} {m0 m1 : Mesh K} {pops : Pops K} {b : Bool} {c : Cell} {y : K}
    (h : ((b, c), y) ∈ candidates n0 n1 m0 m1 pops) :
    (b = false ∧ c ∈ cells 1 m0.ncont pops.jmax0 n0.levels.length) ∨
    (b = true ∧ c ∈ cells 0 m1.ncont pops.jmax1 n1.levels.length) := by
  unfold candidates at h
  rcases List.mem_append.mp h with h | h
  · obtain ⟨c', h1, h2⟩ := List.mem_map.mp h
    cases h2
    exact Or.inl ⟨rfl, h1⟩
  · split at h
    · obtain ⟨c', h1, h2⟩ := List.mem_map.mp h
      cases h2
      exact Or.inr ⟨rfl, h1⟩
    · cases h

theorem cellPoint_some {c : Nat} {n : Nuc K} {m : Mesh K} {k0 ncont : Nat} {jm : Int} {cl : Cell}
    (h : cl ∈ cells k0 ncont jm n.levels.length) : ∃ x, cellPoint c n m cl = some x := by
  cases cl with
  | cont k idx even => exact ⟨_, rfl⟩
  | disc i =>
    have := mem_cells.mp h
    simp only at this
    exact ⟨_, by simp [cellPoint, List.getElem?_eq_getElem this]; rfl⟩

theorem denotes_of {c0 : Nat} {n0 n1 : Nuc K} {m0 m1 : Mesh K} {b : Bool} {c : Cell} {x : MCPoint K}
    (h : (if b then cellPoint n0.next n1 m1 c else cellPoint c0 n0 m0 c) = some x) :
    Denotes c0 n0 n1 m0 m1 (b, c) x := by
  cases b <;> cases c with
  | cont k idx even => exact (Option.some.inj h).symm
  | disc i =>
    obtain ⟨l, h1, h2⟩ := Option.map_eq_some_iff.mp h
    exact ⟨l, h1, h2.symm⟩

/-- **C20.**  For any non-negative populations and any `r > 0` up to their total there is exactly one
state whose cumulative interval (of length equal to its population, so the population is positive)
contains `r`, and `mcFindNext` moves to that state using just the one random number. -/
theorem C20_inverse_cdf (c0 : Nat) (n0 n1 : Nuc K) (m0 m1 : Mesh K) (pops : Pops K)
    (hg : ∀ t ∈ pops.g, 0 ≤ t.2) (hn : ∀ t ∈ pops.n, 0 ≤ t.2) (p j : Int) (r : K) (h0 : 0 < r)
    (h1 : r ≤ ((candidates n0 n1 m0 m1 pops).map Prod.snd).sum) :
    ∃ c, Chosen (candidates n0 n1 m0 m1 pops) r c ∧
      (∀ c', Chosen (candidates n0 n1 m0 m1 pops) r c' → c' = c) ∧
      ∃ x, Denotes c0 n0 n1 m0 m1 c x ∧
        ∀ s, findNext c0 n0 n1 m0 m1 pops p j (r :: s) = .ok (x, s) := by
  generalize hc : firstReach r 0 (candidates n0 n1 m0 m1 pops) = o
  rcases o with _ | ⟨b, c⟩
  · exfalso
    by_cases hl : candidates n0 n1 m0 m1 pops = []
    · rw [hl] at h1
      simp at h1
      exact absurd h0 (not_lt.mpr h1)
    · have := firstReach_none hc hl
      rw [zero_add] at this
      exact absurd this (not_lt.mpr h1)
  · obtain ⟨l1, y, l2, e, h2, h3⟩ := firstReach_some hc
    have hch : Chosen (candidates n0 n1 m0 m1 pops) r (b, c) := by
      refine ⟨l1, y, l2, e, ?_, by simpa using h2⟩
      by_cases hl : l1 = []
      · subst hl; simpa using h0
      · simpa using h3 hl
    refine ⟨(b, c), hch, ?_, ?_⟩
    · rintro c' ⟨l1', y', l2', e', a1, a2⟩
      obtain ⟨l1, y, l2, e, b1, b2⟩ := hch
      exact (prefix_unique (candidates_nonneg hg hn) e' e a1 a2 b1 b2).2.1
    · have hm : ((b, c), y) ∈ candidates n0 n1 m0 m1 pops := by rw [e]; simp
      have hx : ∃ x, (if b then cellPoint n0.next n1 m1 c else cellPoint c0 n0 m0 c) = some x := by
        rcases candidates_cell hm with ⟨rfl, h⟩ | ⟨rfl, h⟩
        · exact cellPoint_some h
        · exact cellPoint_some h
      obtain ⟨x, hx⟩ := hx
      refine ⟨x, denotes_of hx, ?_⟩
      intro s
      unfold findNext
      rw [Rnd.bind_run, Rnd.draw_cons]
      simp only [hc]
      cases b
      · exact Rnd.get_ok.mpr ⟨hx, rfl⟩
      · exact Rnd.get_ok.mpr ⟨hx, rfl⟩

/-- **C20**, each state is listed once. -/
theorem C20_states_once (n0 n1 : Nuc K) (m0 m1 : Mesh K) (pops : Pops K) :
    ((candidates n0 n1 m0 m1 pops).map Prod.fst).Nodup := by
  unfold candidates
  rw [List.map_append, List.map_map, List.nodup_append]
  refine ⟨?_, ?_, ?_⟩
  · refine List.Nodup.map ?_ (cells_nodup _ _ _ _)
    intro a b h
    simpa using h
  · split
    · rw [List.map_map]
      refine List.Nodup.map ?_ (cells_nodup _ _ _ _)
      intro a b h
      simpa using h
    · simp
  · intro a ha b hb
    obtain ⟨c, -, rfl⟩ := List.mem_map.mp ha
    split at hb
    · rw [List.map_map] at hb
      obtain ⟨c', -, rfl⟩ := List.mem_map.mp hb
      simp
    · simp at hb

/-- **C20**, populations from a decay step: every `0 < r ≤ 1` selects by the inverse CDF, so the fallback
is never used. -/
theorem C20_no_fallback (maxJ : Nat) (w : K) (hw : 0 ≤ w) (c0 : Nat) (n0 n1 : Nuc K) (m0 m1 : Mesh K)
    (ph : Phys K) (hph : PhysNonneg ph) (p j jmax0 jmax1 : Int) (pops : Pops K) (s s' : List K)
    (h : compoundDecay maxJ w n0 n1 m0 m1 ph p j jmax0 jmax1 s = .ok (pops, s')) (r : K) (h0 : 0 < r)
    (h1 : r ≤ 1) :
    ∃ c x, Chosen (candidates n0 n1 m0 m1 pops) r c ∧ Denotes c0 n0 n1 m0 m1 c x ∧
      ∀ s, findNext c0 n0 n1 m0 m1 pops p j (r :: s) = .ok (x, s) := by
  obtain ⟨hg, hn⟩ := pops_nonneg hw hph h
  obtain ⟨c, h2, -, x, h3, h4⟩ := C20_inverse_cdf c0 n0 n1 m0 m1 pops hg hn p j r h0
    (by rw [candidates_sum h]; exact h1)
  exact ⟨c, x, h2, h3, h4⟩

/-- **C20**, the fallback is used when the total population is below `r`. -/
theorem C20_fallback (c0 : Nat) (n0 n1 : Nuc K) (m0 m1 : Mesh K) (pops : Pops K)
    (hg : ∀ t ∈ pops.g, 0 ≤ t.2) (hn : ∀ t ∈ pops.n, 0 ≤ t.2) (p j : Int) (r : K) (s s' : List K) (i : Nat)
    (l : Level K) (h1 : ((candidates n0 n1 m0 m1 pops).map Prod.snd).sum < r)
    (hi : forced n0.levels p j s = .ok (i, s')) (hl : n0.levels[i]? = some l) :
    findNext c0 n0 n1 m0 m1 pops p j (r :: s) = .ok (⟨c0, l.parity, 0, i, l.energy, true⟩, s') := by
  have hc : firstReach r 0 (candidates n0 n1 m0 m1 pops) = none := by
    by_contra hne
    obtain ⟨a, ha⟩ := Option.ne_none_iff_exists'.mp hne
    obtain ⟨l1, y, l2, e, h2, -⟩ := firstReach_some ha
    have hnn := candidates_nonneg (n0 := n0) (n1 := n1) (m0 := m0) (m1 := m1) hg hn
    rw [e, List.map_append, List.sum_append, List.map_cons, List.sum_cons] at h1
    have : 0 ≤ (l2.map Prod.snd).sum := by
      apply List.sum_nonneg
      intro x hx
      obtain ⟨t, ht, rfl⟩ := List.mem_map.mp hx
      exact hnn t (by rw [e]; simp [ht])
    linarith
  unfold findNext
  rw [Rnd.bind_run, Rnd.draw_cons]
  simp only [hc]
  rw [Rnd.bind_run, hi]
  exact Rnd.get_ok.mpr ⟨by rw [hl]; rfl, rfl⟩

/-- **C20**, disagreement at the end of the range: `r = 0` selects the first state listed, whatever
its population. -/
theorem C20_zero_draw (c0 : Nat) (n0 n1 : Nuc K) (m0 m1 : Mesh K) (pops : Pops K)
    (hg : ∀ t ∈ pops.g, 0 ≤ t.2) (p j : Int) (h : 1 < m0.ncont) (hj : 0 ≤ pops.jmax0) (s : List K) :
    findNext c0 n0 n1 m0 m1 pops p j (0 :: s) = .ok (⟨c0, 1, 0, 1, m0.exc 1, false⟩, s) := by
  obtain ⟨n, hn⟩ : ∃ n, m0.ncont - 1 = n + 1 := ⟨m0.ncont - 2, by omega⟩
  obtain ⟨q, hq⟩ : ∃ q, (pops.jmax0 + 1).toNat = q + 1 := ⟨pops.jmax0.toNat, by omega⟩
  unfold findNext candidates cells
  rw [Rnd.bind_run, Rnd.draw_cons, hn, hq, List.range'_succ, List.range_succ_eq_map]
  simp only [List.flatMap_cons, List.map_append, List.map_cons, List.cons_append, firstReach, zero_add,
    popOf_nonneg hg, if_true]
  rfl

namespace HFDemo

/-- Two nuclei of the small chain. -/
def n0 : Nuc ℚ := ⟨50, 132, Demo.levels 132, 6, true, 1⟩
def n1 : Nuc ℚ := ⟨50, 131, Demo.levels 131, 6, false, 0⟩
def m0 : Mesh ℚ := ⟨11, 9, fun k => 10 - k⟩
def m1 : Mesh ℚ := ⟨5, 3, fun k => 4 - k⟩

/-- Populations after a decay step from spin one, even parity. -/
def pops : Pops ℚ := match compoundDecay 3 1 n0 n1 m0 m1 Demo.ph 1 1 0 0 [] with
  | .ok x => x.1
  | _ => ⟨[], [], 0, 0⟩

theorem pops_ok : compoundDecay 3 1 n0 n1 m0 m1 Demo.ph 1 1 0 0 [] = .ok (pops, []) := by
  have h : (match compoundDecay 3 1 n0 n1 m0 m1 Demo.ph 1 1 0 0 [] with
    | .ok x => decide (x.2 = [])
    | _ => false) = true := by decide +kernel
  unfold pops
  split at h
  · rename_i x hx
    rw [hx]
    simp only [decide_eq_true_eq] at h
    rw [← h]
  · cases h

theorem ph_nonneg : PhysNonneg Demo.ph := by
  constructor <;> intros <;> exact zero_le_one

end HFDemo

example : ∃ c x, Chosen (candidates HFDemo.n0 HFDemo.n1 HFDemo.m0 HFDemo.m1 HFDemo.pops) (1 / 2) c ∧
    Denotes 0 HFDemo.n0 HFDemo.n1 HFDemo.m0 HFDemo.m1 c x ∧
    ∀ s, findNext 0 HFDemo.n0 HFDemo.n1 HFDemo.m0 HFDemo.m1 HFDemo.pops 1 1 (1 / 2 :: s) = .ok (x, s) :=
  C20_no_fallback 3 1 (by norm_num) 0 _ _ _ _ _ HFDemo.ph_nonneg 1 1 0 0 _ _ _ HFDemo.pops_ok _ (by norm_num)
    (by norm_num)

example : (match findNext 0 HFDemo.n0 HFDemo.n1 HFDemo.m0 HFDemo.m1 HFDemo.pops 1 1 [9 / 10, 1] with
    | .ok x => decide (x.1.n = 1 ∧ x.2 = [1])
    | _ => false) = true := by decide +kernel

/-- A state with zero population is chosen for `r = 0`. -/
example : popOf (⟨[(.cont 1 1 true, 1)], [], 1, 0⟩ : Pops ℚ).g (.cont 1 0 true) = 0 ∧
    findNext 0 HFDemo.n0 HFDemo.n1 HFDemo.m0 HFDemo.m1 ⟨[(.cont 1 1 true, 1)], [], 1, 0⟩ 1 1 [0] =
      .ok (⟨0, 1, 0, 1, 9, false⟩, []) :=
  ⟨by decide +kernel, by
    rw [C20_zero_draw 0 HFDemo.n0 HFDemo.n1 HFDemo.m0 HFDemo.m1 ⟨[(.cont 1 1 true, 1)], [], 1, 0⟩
      (by simp) 1 1 (by decide) (by decide) []]
    norm_num [HFDemo.m0]⟩

example : findNext 0 HFDemo.n0 HFDemo.n1 HFDemo.m0 HFDemo.m1 ⟨[], [], 1, 0⟩ (-1) 1 [1 / 2, 1 / 3, 1] =
    .ok (⟨0, 1, 0, 1, 1, true⟩, []) := by decide +kernel

/-! ## C21 -/

/-- **C21**, nuclei with integral spins (`2 j` is the doubled spin of the state).  The forced transition
ends on an existing level, which is a preferred one if there is any and otherwise has the closest
spin.  Missing from the full claim: nuclei with half-integral spins (`C21_odd_refuted`). -/
theorem C21_forced_partial (levels : List (Level K)) (p j : Int) (i : Nat) (s s' : List K)
    (h : forced levels p j s = .ok (i, s')) (hr : ∀ r ∈ s, 0 ≤ r) :
    ∃ l, levels[i]? = some l ∧
      ((∃ l' ∈ levels, Preferred l' (2 * j) p) → Preferred l (2 * j) p) ∧
      ((∀ l' ∈ levels, ¬ Preferred l' (2 * j) p) →
        ∀ l' ∈ levels, |l.spin2 - 2 * j| ≤ |l'.spin2 - 2 * j|) := by
  obtain ⟨l, h1, h2⟩ := forced_ok h hr
  have hp : ∀ l : Level K, Preferred l (2 * j) p ↔ e1Candidate l p j = true := by
    intro l
    rw [e1Candidate_iff]
    exact Iff.rfl
  refine ⟨l, h1, ?_, ?_⟩
  · rintro ⟨l', hl', hpl⟩
    rcases h2 with h2 | ⟨h2, -⟩
    · exact (hp l).mpr h2
    · have := h2 l' hl'
      rw [(hp l').mp hpl] at this
      cases this
  · intro hnone l' hl'
    rcases h2 with h2 | ⟨-, h2⟩
    · exact absurd ((hp l).mpr h2) (hnone l (List.mem_of_getElem? h1))
    · exact h2 l' hl'

/-- **C21**, no undefined behaviour: some level within 100 units of spin and enough random numbers. -/
theorem C21_defined (levels : List (Level K)) (p j : Int) (s : List K) (hs : levels.length ≤ s.length)
    (h : ∃ l, levels.head? = some l ∧ |l.spin2 - 2 * j| < 200) :
    ∃ i s', forced levels p j s = .ok (i, s') ∧ i < levels.length := by
  have h1 := forced_safe p j h s
  have h2 := (forced_needs (K := K) levels p j s).1 hs
  have h3 := forced_no_exit levels p j s
  generalize forced levels p j s = o at h1 h2 h3
  rcases o with ⟨i, s'⟩ | _ | _ | _
  · exact ⟨i, s', rfl, h1.2 i s' rfl⟩
  · exact absurd rfl h3
  · exact absurd rfl h1.1
  · exact absurd rfl h2

/-- **C21**, when a transition is forced.  One pass of the history loop selects a state `x1` by `mcFindNext` and moves a
continuum state inside its bin (`x2`).  A selected discrete level is kept as it is; a continuum state is kept unless it
lies in the decaying nucleus less than the cut above its highest level, and exactly then it is replaced by the level the
forced transition names. -/
theorem C21_when_forced {par : Par K} {st st' : St K} {m x : MCPoint K} {s s' : List K}
    (h : contStep par st m s = .ok ((st', x), s')) :
    ∃ n0 n1 m0 m1 pops x1 x2 s1 s2 s3 s4 s5 top, par.chain[m.n]? = some n0 ∧
      (m.n = x1.n → n0.levels.getLast? = some top) ∧
      compoundDecay par.maxJ par.w n0 n1 m0 m1 (par.phys m.n m.e) m.p m.j (st.jmax m.n) (st.jmax n0.next) s1 =
        .ok (pops, s2) ∧
      findNext m.n n0 n1 m0 m1 pops m.p m.j s2 = .ok (x1, s3) ∧
      (if m.n = x1.n then perturb n0 m0 x1 s3 else perturb n1 m1 x1 s3) = .ok (x2, s4) ∧
      (x1.disc = true → x = x1) ∧
      (x1.disc = false → (x2.n = x1.n ∧ x2.p = x1.p ∧ x2.j = x1.j ∧ x2.k = x1.k ∧ x2.disc = false) ∧
        (m.n ≠ x1.n ∨ top.energy + par.cut ≤ x2.e → x = x2) ∧
        (m.n = x1.n → x2.e < top.energy + par.cut → ∃ i l, forced n0.levels m.p m.j s4 = .ok (i, s5) ∧
          n0.levels[i]? = some l ∧ x = ⟨m.n, l.parity, 0, i, l.energy, true⟩)) := by
  obtain ⟨n0, m0, d, pops, x1, x2, jm, s1, s2, s3, s4, s5, h1, -, -, -, -, hcd, hf, hp, hl, -, -⟩ := contStep_ok h
  have hp' : (if m.n = x1.n then perturb n0 m0 x1 s3 else perturb d.1 d.2 x1 s3) = .ok (x2, s4) := by
    rw [← hp]
    unfold side
    split <;> rfl
  have hx2 : x2.n = x1.n ∧ x2.p = x1.p ∧ x2.j = x1.j ∧ x2.k = x1.k ∧ x2.disc = x1.disc ∧ (x1.disc = true → x2 = x1) := by
    rcases perturb_ok hp with ⟨hd, rfl⟩ | ⟨hd, top, r, -, -, rfl⟩
    · exact ⟨rfl, rfl, rfl, rfl, rfl, fun _ => rfl⟩
    · exact ⟨rfl, rfl, rfl, rfl, rfl, fun hd' => by rw [hd] at hd'; cases hd'⟩
  obtain ⟨e1, e2, e3, e4, e5, e6⟩ := hx2
  unfold lowCut at hl
  by_cases hn : m.n = x2.n
  · rw [if_pos hn, Rnd.bind_ok] at hl
    obtain ⟨top, s6, ht, hl⟩ := hl
    obtain ⟨htop, rfl⟩ := Rnd.get_ok.mp ht
    by_cases hc : x2.e < top.energy + par.cut ∧ ¬ x2.disc
    · rw [if_pos hc, Rnd.bind_ok] at hl
      obtain ⟨i, s7, hi, hl⟩ := hl
      obtain ⟨-, l, h5, h6⟩ := get_level_ok hl
      refine ⟨n0, d.1, m0, d.2, pops, x1, x2, s1, s2, s3, s6, s7, top, h1, fun _ => htop, hcd, hf, hp', ?_, ?_⟩
      · intro hd
        rw [e5, hd] at hc
        exact absurd rfl hc.2
      · intro hd
        refine ⟨⟨e1, e2, e3, e4, by rw [e5, hd]⟩, ?_, fun _ _ => ⟨i, l, hi, h5, h6⟩⟩
        rintro (hne | hle)
        · exact absurd (hn.trans e1) hne
        · exact absurd hc.1 (not_lt.mpr hle)
    · rw [if_neg hc] at hl
      obtain ⟨rfl, rfl⟩ := Rnd.pure_ok.mp hl
      refine ⟨n0, d.1, m0, d.2, pops, x1, x2, s1, s2, s3, s6, s6, top, h1, fun _ => htop, hcd, hf, hp', e6, ?_⟩
      intro hd
      refine ⟨⟨e1, e2, e3, e4, by rw [e5, hd]⟩, fun _ => rfl, fun _ hlt => ?_⟩
      exact absurd ⟨hlt, by rw [e5, hd]; simp⟩ hc
  · rw [if_neg hn] at hl
    obtain ⟨rfl, rfl⟩ := Rnd.pure_ok.mp hl
    refine ⟨n0, d.1, m0, d.2, pops, x1, x2, s1, s2, s3, s4, s4, ⟨0, 0, 0, 0, []⟩, h1,
      fun hh => absurd (hh.trans e1.symm) hn, hcd, hf, hp', e6, ?_⟩
    intro hd
    refine ⟨⟨e1, e2, e3, e4, by rw [e5, hd]⟩, fun _ => rfl, fun hh => absurd (hh.trans e1.symm) hn⟩

/-- The small chain with a cut of 1.5 MeV above the levels. -/
def HFDemo.cutPar : Par ℚ := { Demo.par with chain := [HFDemo.n0, HFDemo.n1], cut := 3 / 2 }

/-- Parity, index, energy and kind of the state one pass ends in. -/
def HFDemo.after (s : List ℚ) : Option (Int × Nat × ℚ × Bool) :=
  match contStep HFDemo.cutPar Demo.st ⟨0, -1, 1, 0, 7 / 2, false⟩ s with
  | .ok x => some (x.1.2.p, x.1.2.k, x.1.2.e, x.1.2.disc)
  | _ => none

/-- Three passes from 3.5 MeV: a continuum state below the cut (2.01 MeV) is forced to a level, one above it
(2.99 MeV) is kept, and a selected level is kept. -/
example : HFDemo.after [1 / 20, 1 / 100, 1 / 2, 1 / 3, 1 / 4] = some (1, 0, 0, true) ∧
    HFDemo.after [1 / 20, 99 / 100, 1 / 2, 1 / 3, 1 / 4] = some (1, 1, 299 / 100, false) ∧
    HFDemo.after [19 / 20, 99 / 100, 1 / 2, 1 / 3, 1 / 4] = some (1, 1, 1, true) := by decide +kernel

/-- **C21**, undefined behaviour without levels. -/
theorem C21_no_levels (p j : Int) (s : List K) : forced ([] : List (Level K)) p j s = .ub := rfl

/-- **C21 is false for nuclei with half-integral spins.**  The code compares with the spin index `j`
instead of the spin `j + 1/2`: from spin 5/2 (`j = 2`) it goes to spin 1/2, two units away, although a
preferred level exists. -/
theorem C21_odd_refuted : ∃ (levels : List (Level ℚ)) (s : List ℚ) (l : Level ℚ),
    (∃ l' ∈ levels, Preferred l' 5 1) ∧ forced levels 1 2 s = .ok (0, []) ∧ levels[0]? = some l ∧
      ¬ Preferred l 5 1 :=
  ⟨[⟨0, 1, -1, 0, []⟩, ⟨1, 5, -1, 0, []⟩], [3 / 4, 1 / 4], ⟨0, 1, -1, 0, []⟩, by decide, by decide +kernel, rfl,
    by decide⟩

example : ∃ i s', forced (Demo.levels 132) 1 1 [1 / 2, 1 / 3] = .ok (i, s') ∧ i < 2 :=
  C21_defined (Demo.levels 132) 1 1 _ (by decide) ⟨_, rfl, by decide⟩

example : forced (Demo.levels 132) (-1) 1 [1 / 2, 1 / 3] = .ok (0, []) := by decide +kernel

example : forced (Demo.levels 132) 1 1 [] = .ok (0, []) := by decide +kernel

/-! ## C30 -/

/-- **C30.**  After a decay step the populations of all states that can be reached are non-negative and
sum to one, the population of the parent. -/
theorem C30_flux (maxJ : Nat) (w : K) (hw : 0 ≤ w) (n0 n1 : Nuc K) (m0 m1 : Mesh K) (ph : Phys K)
    (hph : PhysNonneg ph) (p j jmax0 jmax1 : Int) (pops : Pops K) (s s' : List K)
    (h : compoundDecay maxJ w n0 n1 m0 m1 ph p j jmax0 jmax1 s = .ok (pops, s')) :
    (∀ t ∈ candidates n0 n1 m0 m1 pops, 0 ≤ t.2) ∧
    ((candidates n0 n1 m0 m1 pops).map Prod.snd).sum = 1 := by
  obtain ⟨hg, hn⟩ := pops_nonneg hw hph h
  exact ⟨candidates_nonneg hg hn, candidates_sum h⟩

/-- **C30**, a decay step never fails when there is a level in reach of the bypass. -/
theorem C30_defined (maxJ : Nat) (w : K) (n0 n1 : Nuc K) (m0 m1 : Mesh K) (ph : Phys K)
    (p j jmax0 jmax1 : Int) (s : List K) (hs : n0.levels.length ≤ s.length)
    (hl : ∃ l, n0.levels.head? = some l ∧ |l.spin2 - 2 * j| < 200) :
    ∃ pops s', compoundDecay maxJ w n0 n1 m0 m1 ph p j jmax0 jmax1 s = .ok (pops, s') := by
  unfold compoundDecay
  generalize (if nOpen n0 m0 = true then neutronTerms maxJ w n0 n1 m0 m1 ph p (2 * j + i0 n0) else []) = nt
  by_cases ht : total (gammaTerms maxJ w n0 m0 ph p (2 * j + i0 n0)) + total nt = 0
  · rw [if_pos ht]
    have h1 := bypass_safe p j hl s
    have h2 := (bypass_needs (K := K) n0.levels p j s).1 hs
    have h3 := bypass_no_exit n0.levels p j s
    rw [Rnd.bind_run]
    generalize bypass n0.levels p j s = o at h1 h2 h3 ⊢
    rcases o with ⟨i, s'⟩ | _ | _ | _
    · exact ⟨_, _, rfl⟩
    · exact absurd rfl h3
    · exact absurd rfl h1.1
    · exact absurd rfl h2
  · rw [if_neg ht]
    exact ⟨_, _, rfl⟩

example : ((candidates HFDemo.n0 HFDemo.n1 HFDemo.m0 HFDemo.m1 HFDemo.pops).map Prod.snd).sum = 1 :=
  (C30_flux 3 1 (by norm_num) _ _ _ _ _ HFDemo.ph_nonneg 1 1 0 0 _ _ _ HFDemo.pops_ok).2

/-! ## C31 -/

/-- **C31.**  Unless nothing couples at all (then everything goes to one level of the parent nucleus),
the populations are one and the same factor `q` times the transmissions: the population of each state
is `q` times the sum over exactly those multipoles or partial waves that angular momentum coupling and
parity allow, times the number of levels in the bin for continuum states; it is zero for states that
are not reachable by energy. -/
theorem C31_selection (maxJ : Nat) (w : K) (n0 n1 : Nuc K) (m0 m1 : Mesh K) (ph : Phys K)
    (p j jmax0 jmax1 : Int) (hp : p = 1 ∨ p = -1) (pops : Pops K) (s s' : List K)
    (h : compoundDecay maxJ w n0 n1 m0 m1 ph p j jmax0 jmax1 s = .ok (pops, s')) :
    (∃ i, i < n0.levels.length ∧ pops.g = [(.disc i, 1)] ∧ pops.n = []) ∨
    ∃ q, q ≠ 0 ∧
      (∀ (k : Nat) (idx : Int) (even : Bool), 0 ≤ idx → idx < maxJ → popOf pops.g (.cont k idx even) =
        if 1 ≤ k ∧ k < m0.ncont then
          q * (photonStrength (fun mu => ph.tgC mu k) (2 * j + i0 n0) p (2 * idx + i0 n0)
            (if even then 1 else -1) * (ph.dens0 k idx even * w))
        else 0) ∧
      (∀ i lev, n0.levels[i]? = some lev → (lev.spin2 - i0 n0) % 2 = 0 → popOf pops.g (.disc i) =
        q * photonStrength (fun mu => ph.tgD mu i) (2 * j + i0 n0) p lev.spin2 lev.parity) ∧
      (i0 n1 = 1 - i0 n0 → ∀ (k : Nat) (idx : Int) (even : Bool), 0 ≤ idx → idx + 1 < maxJ → popOf pops.n (.cont k idx even) =
        if n0.status = true ∧ n0.sn ≤ m0.exc 0 ∧ k < m1.ncont ∧ n0.sn + m1.exc k ≤ m0.exc 0 ∧ 0 < ph.lmaxC k then
          q * (neutronStrength (ph.lmaxC k).toNat (ph.tranC k) (2 * j + i0 n0) p (2 * idx + i0 n1)
            (if even then 1 else -1) * (ph.dens1 k idx even * w))
        else 0) ∧
      (∀ i lev, n1.levels[i]? = some lev → (lev.parity = 1 ∨ lev.parity = -1) → popOf pops.n (.disc i) =
        if n0.status = true ∧ n0.sn ≤ m0.exc 0 ∧ n0.sn + lev.energy ≤ m0.exc 0 ∧ 0 < ph.lmaxD i then
          q * neutronStrength (ph.lmaxD i).toNat (ph.tranD i) (2 * j + i0 n0) p lev.spin2 lev.parity
        else 0) := by
  obtain ⟨nt, hnt, hj0, hj1, hc⟩ := compoundDecay_ok h
  rcases hc with ⟨-, i, hi, -, hg, hn⟩ | ⟨ht, -, hg, hn⟩
  · exact Or.inl ⟨i, hi, hg, hn⟩
  · right
    have ho : nOpen n0 m0 = true ↔ n0.status = true ∧ n0.sn ≤ m0.exc 0 := by
      unfold nOpen; simp
    refine ⟨_, one_div_ne_zero ht, ?_, ?_, ?_, ?_⟩
    · intro k idx even h0 hJ
      rw [hg, popOf_scale, gammaTerms_cont hp k idx even h0 hJ, ite_mul, zero_mul]
      apply if_congr Iff.rfl _ rfl
      unfold photonStrength
      simp only [List.map_cons, List.map_nil, List.sum_cons, List.sum_nil, add_zero]
      rw [mul_comm]
      congr 1
      rw [add_mul, add_mul, ite_mul, ite_mul, ite_mul, zero_mul, ← add_assoc]
    · intro i lev hi hl
      rw [hg, popOf_scale, gammaTerms_disc hp hi (by omega), mul_comm]
      congr 1
      unfold photonStrength
      simp only [List.map_cons, List.map_nil, List.sum_cons, List.sum_nil, add_zero, ← add_assoc]
    · intro hi k idx even h0 hJ
      rw [hn, popOf_scale, hnt]
      by_cases hop : nOpen n0 m0 = true
      · rw [if_pos hop, neutronTerms_cont_exact hp hi k idx even h0
          (by rcases i0_cases n1 with h | h <;> rw [h] <;> omega), ite_mul, zero_mul, mul_comm]
        have := ho.mp hop
        apply if_congr _ rfl rfl
        simp [this]
      · rw [if_neg hop, if_neg (fun h => hop (ho.mpr ⟨h.1, h.2.1⟩)), popOf_nil, zero_mul]
    · intro i lev hi hl
      rw [hn, popOf_scale, hnt]
      by_cases hop : nOpen n0 m0 = true
      · rw [if_pos hop, neutronTerms_disc_exact hp hi hl, ite_mul, zero_mul, mul_comm]
        have := ho.mp hop
        apply if_congr _ rfl rfl
        simp [this]
      · rw [if_neg hop, if_neg (fun h => hop (ho.mpr ⟨h.1, h.2.1⟩)), popOf_nil, zero_mul]

/-- Dipole photons lead from `1+` to `0-` and `0+`, but `0+` to `0+` is forbidden. -/
example : photonStrength (fun _ => (1 : ℚ)) 2 1 0 (-1) = 1 ∧ photonStrength (fun _ => (1 : ℚ)) 2 1 4 1 = 2 ∧
    photonStrength (fun _ => (1 : ℚ)) 0 1 0 1 = 0 := by decide +kernel

/-- An s-wave neutron keeps the parity; from `1+` it leads to spins 1/2 and 3/2. -/
example : neutronStrength 0 (fun _ => (1 : ℚ)) 2 1 1 1 = 1 ∧ neutronStrength 0 (fun _ => (1 : ℚ)) 2 1 1 (-1) = 0 ∧
    neutronStrength 1 (fun _ => (1 : ℚ)) 2 1 1 (-1) = 2 ∧ neutronStrength 0 (fun _ => (1 : ℚ)) 2 1 5 1 = 0 := by
  decide +kernel

example : ¬ (∃ i, i < HFDemo.n0.levels.length ∧ HFDemo.pops.g = [(.disc i, 1)] ∧ HFDemo.pops.n = []) := by
  rintro ⟨i, -, -, h⟩
  have : (decide (HFDemo.pops.n = [])) = false := by decide +kernel
  rw [h] at this
  simp at this

/-! ## C33 -/

/-- **C33**, single state.  The populations form a distribution exactly when the spin is in range; then
the decay starts with just that spin and parity, and otherwise the program stops. -/
theorem C33_single (par : Par K) (st : St K) (E : K) (jint p0 : Int) :
    (IsDistribution (popSingle (K := K) par.maxJ jint p0) ↔ 0 ≤ jint ∧ jint < par.maxJ) ∧
    (0 ≤ jint ∧ jint < par.maxJ → contStart par st E jint p0 = historyLoop par
      { st with jmax := fun c => if c = 0 then (par.maxJ : Int) - 1 else st.jmax c }
      ⟨0, if p0 < 0 then -1 else 1, jint, 0, E, false⟩) ∧
    (¬ (0 ≤ jint ∧ jint < par.maxJ) → ∀ s, contStart par st E jint p0 s = .exit) := by
  refine ⟨?_, ?_, ?_⟩
  · have ht := total_single (K := K) par.maxJ jint p0
    constructor
    · rintro ⟨-, h⟩
      by_contra hc
      rw [ht, if_neg hc] at h
      exact zero_ne_one h
    · intro h
      refine ⟨?_, by rw [ht, if_pos h]⟩
      intro x hx
      unfold popSingle at hx
      obtain ⟨j, -, rfl⟩ := List.mem_map.mp hx
      split
      · split <;> norm_num
      · simp
  · intro h
    unfold contStart
    rw [fixedStart_one, if_pos h]
  · intro h s
    unfold contStart
    rw [fixedStart_one, if_neg h]
    rfl

/-- **C33**, spin distribution.  If the loop reaches the cut-off below `MAX_J`, the populations form a
distribution proportional to the spin distribution, equal for both parities. -/
theorem C33_levden_partial (maxJ : Nat) (sd : Nat → K) (cut : K) (hsd : ∀ j, 0 ≤ sd j) (j0 : Nat)
    (hj : j0 < maxJ) (hcut : 2 * sd j0 < cut) (h2 : 2 < j0) (hpos : 0 < sd 0) :
    IsDistribution (popLevden maxJ sd cut) ∧
    ∃ J, J ≤ j0 ∧ 2 * sd J < cut ∧ ∃ c, 0 < c ∧
      popLevden maxJ sd cut = (List.range maxJ).map fun j => if j ≤ J then (c * sd j, c * sd j) else (0, 0) := by
  have hstop : ∃ J, levdenStop maxJ sd cut = some J := by
    cases hs : levdenStop maxJ sd cut with
    | some J => exact ⟨J, rfl⟩
    | none =>
      have := List.find?_eq_none.mp hs j0 (List.mem_range.mpr hj)
      simp only [decide_eq_true_eq] at this
      exact absurd ⟨hcut, h2⟩ this
  obtain ⟨J, hJ⟩ := hstop
  obtain ⟨a1, a2, a3⟩ := levdenStop_spec hJ
  have hJle : J ≤ j0 := levdenStop_le hJ hcut h2
  have hfil : levdenFilled maxJ sd cut = J + 1 := by unfold levdenFilled; rw [hJ]
  have hjm : levdenJmax maxJ sd cut = J := by unfold levdenJmax; rw [hJ]
  have hS : levdenSum maxJ sd cut = ((List.range (J + 1)).map sd).sum := by
    unfold levdenSum
    rw [hfil]
    congr 1
    apply List.map_congr_left
    intro j _
    ring
  have hSpos : 0 < ((List.range (J + 1)).map sd).sum := by
    rw [List.range_succ_eq_map, List.map_cons, List.sum_cons]
    apply add_pos_of_pos_of_nonneg hpos
    apply List.sum_nonneg
    intro x hx
    obtain ⟨j, -, rfl⟩ := List.mem_map.mp hx
    exact hsd j
  have hpop : popLevden maxJ sd cut = (List.range maxJ).map fun j => if j ≤ J then
      ((1 / 2 / ((List.range (J + 1)).map sd).sum) * sd j, (1 / 2 / ((List.range (J + 1)).map sd).sum) * sd j)
      else (0, 0) := by
    unfold popLevden
    apply List.map_congr_left
    intro j _
    rw [hfil, hjm, hS]
    by_cases hjJ : j ≤ J
    · rw [if_pos (by omega), if_pos hjJ, if_pos hjJ]
      congr 1 <;> ring
    · rw [if_neg (by omega), if_neg hjJ]
  have hc : 0 < 1 / 2 / ((List.range (J + 1)).map sd).sum := div_pos (by norm_num) hSpos
  refine ⟨⟨?_, ?_⟩, J, hJle, a2, _, hc, hpop⟩
  · intro x hx
    rw [hpop] at hx
    obtain ⟨j, -, rfl⟩ := List.mem_map.mp hx
    split
    · exact ⟨mul_nonneg hc.le (hsd j), mul_nonneg hc.le (hsd j)⟩
    · simp
  · rw [hpop, List.map_map, sum_range_ite (n := J + 1) (by omega) (fun j => sd j / ((List.range (J + 1)).map sd).sum)]
    · have : ((List.range (J + 1)).map fun j => sd j / ((List.range (J + 1)).map sd).sum).sum =
          ((List.range (J + 1)).map sd).sum / ((List.range (J + 1)).map sd).sum := by
        simp only [div_eq_mul_inv]
        rw [list_sum_mul]
      rw [this, div_self hSpos.ne']
    · intro j hj
      simp only [Function.comp]
      by_cases hjJ : j < J + 1
      · rw [if_pos hjJ, if_pos (by omega)]; ring
      · rw [if_neg hjJ, if_neg (by omega)]; ring

/-- **C33 fails for wide spin distributions.**  If the cut-off is not reached, only the first spin is
normalised: the total is `S - sd 0 + sd 0 / S`, where `S` is the sum of the spin distribution. -/
theorem C33_levden_unnormalised (maxJ : Nat) (h0 : 0 < maxJ) (sd : Nat → K) (cut : K)
    (hno : ∀ j, 2 < j → j < maxJ → cut ≤ 2 * sd j) :
    ((popLevden maxJ sd cut).map fun x => x.1 + x.2).sum =
      ((List.range maxJ).map sd).sum - sd 0 + sd 0 / ((List.range maxJ).map sd).sum := by
  have hstop : levdenStop maxJ sd cut = none := by
    apply List.find?_eq_none.mpr
    intro j hj
    simp only [decide_eq_true_eq]
    rintro ⟨h1, h2⟩
    exact absurd h1 (not_lt.mpr (hno j h2 (List.mem_range.mp hj)))
  have hfil : levdenFilled maxJ sd cut = maxJ := by unfold levdenFilled; rw [hstop]
  have hjm : levdenJmax maxJ sd cut = 0 := by unfold levdenJmax; rw [hstop]
  have hS : levdenSum maxJ sd cut = ((List.range maxJ).map sd).sum := by
    unfold levdenSum
    rw [hfil]
    congr 1
    apply List.map_congr_left
    intro j _
    ring
  unfold popLevden
  rw [hfil, hjm, hS, List.map_map]
  obtain ⟨n, rfl⟩ : ∃ n, maxJ = n + 1 := ⟨maxJ - 1, by omega⟩
  have hsum : ((List.range (n + 1)).map sd).sum = sd 0 + ((List.range n).map fun j => sd (j + 1)).sum := by
    rw [List.range_succ_eq_map, List.map_cons, List.sum_cons, List.map_map]
    rfl
  generalize hSS : ((List.range (n + 1)).map sd).sum = S at hsum ⊢
  rw [List.range_succ_eq_map, List.map_cons, List.sum_cons, List.map_map]
  have : ((List.range n).map ((fun x : K × K => x.1 + x.2) ∘ (fun j => if j < n + 1 then
      if j ≤ 0 then (sd j * (1 / 2) / S, sd j * (1 / 2) / S) else (sd j * (1 / 2), sd j * (1 / 2)) else (0, 0)) ∘
      Nat.succ)).sum = ((List.range n).map fun j => sd (j + 1)).sum := by
    congr 1
    apply List.map_congr_left
    intro j hj
    have := List.mem_range.mp hj
    simp only [Function.comp]
    rw [if_pos (by omega), if_neg (by omega)]
    ring
  have e : ∀ f : Nat → K × K, ((fun x : K × K => x.1 + x.2) ∘ f) ∘ Nat.succ = (fun x : K × K => x.1 + x.2) ∘ f ∘ Nat.succ :=
    fun _ => rfl
  rw [e, this]
  simp only [Function.comp, Nat.succ_pos', if_true, le_refl]
  linear_combination -hsum

/-- **C33**, entrance channel: if the populations are defined they form a distribution. -/
theorem C33_transmission (maxJ : Nat) (ig it pt lmax : Int) (hig : 0 ≤ ig) (tran : Nat → K) (ht : ∀ i, 0 ≤ tran i)
    (pop : List (K × K)) (h : popTransmission maxJ ig it pt lmax tran = some pop) :
    IsDistribution pop := by
  unfold popTransmission at h
  by_cases hs : entranceSum maxJ ig it pt lmax tran = 0
  · rw [if_pos hs] at h; cases h
  · rw [if_neg hs] at h
    have h := Option.some.inj h
    have he : ∀ (j : Nat) (p0 : Int), 0 ≤ entrance ig it pt lmax tran j p0 := by
      intro j p0
      apply List.sum_nonneg
      intro x hx
      obtain ⟨v, -, rfl⟩ := List.mem_map.mp hx
      apply mul_nonneg _ (ht _)
      have : (0 : K) ≤ (ig : K) := by exact_mod_cast hig
      positivity
    have hpos : 0 ≤ entranceSum maxJ ig it pt lmax tran := by
      apply List.sum_nonneg
      intro x hx
      obtain ⟨v, -, rfl⟩ := List.mem_map.mp hx
      exact add_nonneg (he _ _) (he _ _)
    rw [← h]
    constructor
    · intro x hx
      obtain ⟨j, -, rfl⟩ := List.mem_map.mp hx
      exact ⟨div_nonneg (he _ _) hpos, div_nonneg (he _ _) hpos⟩
    · rw [List.map_map]
      have hS : entranceSum maxJ ig it pt lmax tran = ((List.range maxJ).map fun j : Nat =>
        entrance ig it pt lmax tran j 1 + entrance ig it pt lmax tran j (-1)).sum := rfl
      generalize entranceSum maxJ ig it pt lmax tran = S at hS hs
      rw [← mul_inv_cancel₀ hs]
      conv_rhs => rw [hS]
      rw [← list_sum_mul, ← hS]
      congr 1
      apply List.map_congr_left
      intro j _
      simp only [Function.comp]
      ring

/-- **C33**, beta decay. -/
theorem C33_beta (maxJ : Nat) (low : Bool) (jint p0 : Int) (h0 : if low then jint = 0 else 1 ≤ jint) :
    IsDistribution (popBeta (K := K) maxJ low jint p0) ↔ jint + 1 < maxJ := by
  have hz : ∀ x ∈ (noPop maxJ : List (K × K)), if p0 < 0 then x.1 = 0 else x.2 = 0 := by
    intro x hx
    rw [List.eq_of_mem_replicate hx]
    simp
  have hz' : ∀ x ∈ (noPop maxJ : List (K × K)), 0 ≤ x.1 ∧ 0 ≤ x.2 := by
    intro x hx
    rw [List.eq_of_mem_replicate hx]
    simp
  have hl : (noPop maxJ : List (K × K)).length = maxJ := by simp [noPop]
  have ht : ((noPop maxJ : List (K × K)).map fun x => x.1 + x.2).sum = 0 := by simp [noPop]
  have hdiv : ∀ (m : K) (pop : List (K × K)), 0 < m → (∀ x ∈ pop, 0 ≤ x.1 ∧ 0 ≤ x.2) →
      ∀ x ∈ divPop m pop, 0 ≤ x.1 ∧ 0 ≤ x.2 := by
    intro m pop hm h x hx
    obtain ⟨y, hy, rfl⟩ := List.mem_map.mp hx
    exact ⟨div_nonneg (h y hy).1 hm.le, div_nonneg (h y hy).2 hm.le⟩
  cases low
  · simp only [Bool.false_eq_true, if_false] at h0
    have a := addSingle_total (jint := jint - 1) hz
    have b := addSingle_total (jint := jint) a.2.1
    have c := addSingle_total (jint := jint + 1) b.2.1
    unfold popBeta IsDistribution
    simp only [Bool.false_eq_true, if_false]
    rw [div_total, c.1, b.2.2.1, a.2.2.1, b.1, a.2.2.1, a.1, ht, hl]
    constructor
    · rintro ⟨-, h⟩
      by_contra hc
      have e3 : ¬ (0 ≤ jint + 1 ∧ jint + 1 < (maxJ : Int)) := by omega
      rw [if_neg e3] at h
      have : ∀ q : Prop, ∀ [Decidable q], (if q then (1 : K) else 0) ≤ 1 := by
        intro q _; split <;> norm_num
      have h1 := this (0 ≤ jint - 1 ∧ jint - 1 < (maxJ : Int))
      have h2 := this (0 ≤ jint ∧ jint < (maxJ : Int))
      have h3 : ((0 : K) + (if 0 ≤ jint - 1 ∧ jint - 1 < (maxJ : Int) then 1 else 0) +
        (if 0 ≤ jint ∧ jint < (maxJ : Int) then 1 else 0) + 0) = 3 := by
        field_simp at h
        linarith
      linarith
    · intro hc
      refine ⟨hdiv 3 _ (by norm_num) (c.2.2.2 (b.2.2.2 (a.2.2.2 hz'))), ?_⟩
      rw [if_pos (by omega), if_pos (by omega), if_pos (by omega)]
      norm_num
  · simp only [if_true] at h0
    subst h0
    have b := addSingle_total (jint := 0) hz
    have c := addSingle_total (jint := 0 + 1) b.2.1
    unfold popBeta IsDistribution
    simp only [if_true]
    rw [div_total, c.1, b.2.2.1, b.1, ht, hl]
    constructor
    · rintro ⟨-, h⟩
      by_contra hc
      have e3 : ¬ ((0 : Int) ≤ 0 + 1 ∧ (0 : Int) + 1 < (maxJ : Int)) := by omega
      rw [if_neg e3] at h
      have : ∀ q : Prop, ∀ [Decidable q], (if q then (1 : K) else 0) ≤ 1 := by
        intro q _; split <;> norm_num
      have h2 := this ((0 : Int) ≤ 0 ∧ (0 : Int) < (maxJ : Int))
      have h3 : ((0 : K) + (if (0 : Int) ≤ 0 ∧ (0 : Int) < (maxJ : Int) then 1 else 0) + 0) = 2 := by
        field_simp at h
        linarith
      linarith
    · intro hc
      refine ⟨hdiv 2 _ (by norm_num) (c.2.2.2 (b.2.2.2 hz')), ?_⟩
      rw [if_pos (by omega), if_pos (by omega)]
      norm_num

example (p0 : Int) : IsDistribution (popSingle (K := ℚ) 50 7 p0) ∧ ¬ IsDistribution (popSingle (K := ℚ) 50 50 p0) :=
  ⟨((C33_single (⟨1, 1, 50, 1, 1, 1, id, [], fun _ _ => Demo.ph⟩ : Par ℚ) Demo.st 1 7 p0).1).mpr (by decide),
   fun h => absurd (((C33_single (⟨1, 1, 50, 1, 1, 1, id, [], fun _ _ => Demo.ph⟩ : Par ℚ) Demo.st 1 50 p0).1).mp h)
    (by decide)⟩

/-- A spin distribution that falls below the cut-off. -/
example : IsDistribution (popLevden 50 (fun j => (1 : ℚ) / (10 ^ j)) (1 / 10 ^ 8)) :=
  (C33_levden_partial 50 (fun j => (1 : ℚ) / (10 ^ j)) _ (fun j => by positivity) 10 (by norm_num) (by norm_num)
    (by norm_num) (by norm_num)).1

/-- A constant spin distribution: the total is 51/100. -/
example : ((popLevden 50 (fun _ => (1 : ℚ) / 100) (1 / 10 ^ 8)).map fun x => x.1 + x.2).sum = 51 / 100 := by
  rw [C33_levden_unnormalised 50 (by norm_num) _ _ (fun _ _ _ => by norm_num)]
  norm_num

/-- Neutrons on a `0+` target. -/
example : ∃ pop, popTransmission 5 1 0 1 1 (fun _ => (1 : ℚ)) = some pop ∧ IsDistribution pop := by
  have h : (popTransmission 5 1 0 1 1 (fun _ => (1 : ℚ))).isSome = true := by decide +kernel
  obtain ⟨pop, hp⟩ := Option.isSome_iff_exists.mp h
  exact ⟨pop, hp, C33_transmission 5 1 0 1 1 (by norm_num) _ (fun _ => by norm_num) pop hp⟩

example : IsDistribution (popBeta (K := ℚ) 50 false 3 (-1)) ∧ IsDistribution (popBeta (K := ℚ) 50 true 0 1) ∧
    ¬ IsDistribution (popBeta (K := ℚ) 50 false 49 1) :=
  ⟨(C33_beta 50 false 3 (-1) (by decide)).mpr (by decide), (C33_beta 50 true 0 1 (by decide)).mpr (by decide),
   fun h => absurd ((C33_beta 50 false 49 1 (by decide)).mp h) (by decide)⟩

/-! ## C34 -/

/-- **C34**, what the code does: it starts one level above the level whose energy is closest to the
excitation energy (the lowest of several), where the highest level is not considered. -/
theorem C34_start_partial (n : Nuc K) (m : Mesh K) (E : K) (h2 : 2 ≤ n.levels.length)
    (h100 : ∃ l ∈ n.levels.dropLast, |E - l.energy| < 100) :
    ∃ k l, startLevel n m E = k + 1 ∧ k + 1 < n.levels.length ∧ n.levels[k]? = some l ∧
      (∀ i l', i + 1 < n.levels.length → n.levels[i]? = some l' → |E - l.energy| ≤ |E - l'.energy|) ∧
      (∀ i l', i < k → n.levels[i]? = some l' → |E - l.energy| < |E - l'.energy|) := by
  have hne : ¬ (n.levels.length = 1 ∧ m.ncont = 0) := by omega
  have hget : ∀ i, i + 1 < n.levels.length → n.levels.dropLast[i]? = n.levels[i]? := by
    intro i hi
    rw [List.getElem?_dropLast, if_pos (by omega)]
  unfold startLevel
  rw [if_neg hne]
  rcases nearest_spec E n.levels.dropLast 0 100 0 with ⟨-, h⟩ | ⟨q, l, h1, h3, h4, h5, h6⟩
  · obtain ⟨l, hl, hlt⟩ := h100
    exact absurd (h l hl) (not_le.mpr hlt)
  · have hq : q + 1 < n.levels.length := by
      have := (List.getElem?_eq_some_iff.mp h3).1
      rw [List.length_dropLast] at this
      omega
    refine ⟨q, l, by rw [h1, zero_add], hq, by rw [← hget q hq]; exact h3, ?_, ?_⟩
    · intro i l' hi hl'
      exact h5 l' (List.mem_of_getElem? (by rw [hget i hi]; exact hl'))
    · intro i l' hi hl'
      exact h6 i l' hi (by rw [hget i (by omega)]; exact hl')

/-- **C34 is false as one would expect it**: a fragment whose excitation energy is exactly the energy of
a level (not the highest one) starts on the next higher level, above its excitation energy. -/
theorem C34_refuted (n : Nuc K) (m : Mesh K) (k : Nat) (l l1 : Level K)
    (hs : ∀ (i j : Nat) (a b : Level K), i < j → n.levels[i]? = some a → n.levels[j]? = some b → a.energy < b.energy)
    (hk : n.levels[k]? = some l) (hk1 : n.levels[k + 1]? = some l1) :
    startLevel n m l.energy = k + 1 ∧ l.energy < l1.energy := by
  refine ⟨?_, hs k (k + 1) l l1 (by omega) hk hk1⟩
  have hlen := (List.getElem?_eq_some_iff.mp hk1).1
  have hmem : l ∈ n.levels.dropLast := by
    apply List.mem_of_getElem? (i := k)
    rw [List.getElem?_dropLast, if_pos (by omega)]
    exact hk
  obtain ⟨q, l', h1, h2, h3, h4, -⟩ := C34_start_partial n m l.energy (by omega)
    ⟨l, hmem, by rw [sub_self, abs_zero]; norm_num⟩
  have h5 := h4 k l hlen hk
  rw [sub_self, abs_zero] at h5
  have h6 : l.energy = l'.energy := by
    have := abs_eq_zero.mp (le_antisymm h5 (abs_nonneg _))
    linarith
  rcases lt_trichotomy q k with h | h | h
  · exact absurd (hs q k l' l h h3 hk) (by rw [h6]; exact lt_irrefl _)
  · rw [h1, h]
  · exact absurd (hs k q l l' h hk h3) (by rw [h6]; exact lt_irrefl _)

/-- Levels at 0, 1, 2 and 3 MeV: an excitation energy of 1 MeV starts at 2 MeV. -/
example : startLevel (⟨50, 132, [⟨0, 0, 1, 0, []⟩, ⟨1, 4, 1, 0, []⟩, ⟨2, 4, 1, 0, []⟩, ⟨3, 4, 1, 0, []⟩], 6, false, 0⟩ :
    Nuc ℚ) ⟨2, 0, fun _ => 0⟩ 1 = 2 := by decide +kernel

end CGMF.Props

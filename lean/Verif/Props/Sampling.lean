import Verif.Proofs.Fragments
import Verif.Proofs.Accept
import Mathlib.Data.Rat.Floor
import Mathlib.Algebra.Order.Archimedean.Real.Basic
import Mathlib.Analysis.SpecialFunctions.Exp

/-!
# C48, C53, C54: sampling of mass, charge and spin; tables in energy

Readable from the statements with `Model/Fragments.lean`: `pickAZ` is the pair of rejection loops for mass and
charge, `Covers` says that the tables reach the masses and charges that can be proposed, `interpRow` is the
interpolation of `getTemperature` and `getLDP`, `spinProb` the spin distribution and `spin` its sampler.
-/

namespace CGMF.Props

open CGMF CGMF.Pre CGMF.Frag MeasureTheory

set_option linter.unusedSectionVars false

section

variable {K : Type} [Field K] [LinearOrder K] [IsStrictOrderedRing K] [FloorRing K]

/-! ## C48 -/

/-- **C48.** Whatever the tables and the random numbers, a returned mass and charge were each proposed from one
random number and accepted with the next: the tabulated yields are at least the drawn fractions `r2`, `q2` of
the tabulated maxima. -/
theorem C48_heights (t : Tab K) (s s' : List K) (A z : Int) (h : pickAZ t s = .ok ((A, z), s')) :
    ∃ (pre mid : List K) (r1 r2 q1 q2 v w mz : K), s = pre ++ r1 :: r2 :: (mid ++ q1 :: q2 :: s') ∧
      A = massOf t r1 ∧ readAt t.ya A = .ok v ∧ r2 * t.maxA ≤ v ∧
      z = chargeOf t q1 ∧ readAt t.mz A = .ok mz ∧ readAt2 t.yza (z + t.dZ) A = .ok w ∧ q2 * mz ≤ w := by
  obtain ⟨pre, s1, r1, r2, v, e1, e2, e3, e4, e5⟩ := pickAZ_ok t s.length s s' (A, z) le_rfl h
  obtain ⟨mz, iZ, f1, f2, f3⟩ := withZ_ok e5
  simp only [Prod.mk.injEq, true_and] at f2
  subst f2
  obtain ⟨mid, q1, q2, w, g1, g2, g3, g4⟩ := pickZ_ok t A mz s1.length s1 s' z le_rfl f3
  exact ⟨pre, mid, r1, r2, q1, q2, v, w, mz, by rw [e1, g1], e2, e3, e4, g2, f1, g3, g4⟩

/-- **C48.** With random numbers in `[0, 1)` and tables covering the range, nothing outside the tables is read,
the mass is between `Amin` and `Amax` and the charge offset within `dZ`. -/
theorem C48_range (t : Tab K) (hc : Covers t) (s : List K) (hs : Unit01 s) :
    pickAZ t s ≠ .ub ∧ ∀ A z s', pickAZ t s = .ok ((A, z), s') →
      t.amin ≤ A ∧ A ≤ t.amax ∧ -t.dZ ≤ z ∧ z ≤ t.dZ := by
  obtain ⟨h1, h2⟩ := pickAZ_sound t hc s hs
  refine ⟨h1, fun A z s' h => ?_⟩
  obtain ⟨⟨a, b⟩, c⟩ := (h2 _ _ h).1
  exact ⟨a, b, c⟩

/-- **C48.** If no random number is exactly zero, a mass or a charge of zero yield is never returned (the
tabulated maxima being positive). -/
theorem C48_no_zero (t : Tab K) (hA : 0 < t.maxA) (hz : ∀ m ∈ t.mz, 0 < m) (s s' : List K) (hs : ∀ r ∈ s, 0 < r)
    (A z : Int) (h : pickAZ t s = .ok ((A, z), s')) :
    readAt t.ya A ≠ .ok 0 ∧ readAt2 t.yza (z + t.dZ) A ≠ .ok 0 := by
  obtain ⟨pre, mid, r1, r2, q1, q2, v, w, mz, e, _, e2, e3, _, e5, e6, e7⟩ := C48_heights t s s' A z h
  have hr : 0 < r2 := hs r2 (by rw [e]; simp)
  have hq : 0 < q2 := hs q2 (by rw [e]; simp)
  have hm : 0 < mz := hz mz (List.mem_of_getElem? (readAt_ok_iff.mp e5).2)
  constructor
  · intro h0
    rw [e2] at h0
    simp only [Res.ok.injEq] at h0
    have := mul_pos hr hA
    linarith
  · intro h0
    rw [e6] at h0
    simp only [Res.ok.injEq] at h0
    have := mul_pos hq hm
    linarith

/-- Tables of the examples: mass 4 has no yield, and charge offset -1 none for mass 5. -/
def smpTab : Tab ℚ := ⟨3, 5, 1, 1, [0, 0, 0, 1 / 2, 0, 1], [[0, 0, 0, 1, 1, 0], [0, 0, 0, 1, 1, 1], [0, 0, 0, 1, 1, 1 / 3]],
  [1, 1, 1, 1, 1, 1], [0, 0, 0, 1, 2, 3]⟩

example : Covers smpTab := ⟨by decide, by decide, by decide, by decide, by decide, by decide, by decide, by decide⟩

/-- Mass 4 and offset -1 are proposed and rejected. -/
example : pickAZ smpTab [1 / 2, 1 / 9, 5 / 6, 1 / 2, 1 / 9, 1 / 9, 5 / 6, 1 / 9, 3 / 4] = .ok ((5, 1), [3 / 4]) := by
  decide +kernel

/-- With a height of exactly zero a mass without yield is accepted. -/
example : pickAZ smpTab [1 / 2, 0, 1 / 2, 1 / 2] = .ok ((4, 0), []) := by decide +kernel

/-! ## C53 -/

theorem energyIndex_spec {e : K} {x : K} {xs : List K} :
    (findEnergyIndex e (x :: xs) = -1 ∧ ∀ y ∈ xs, y ≤ e) ∨
      ∃ k : Nat, findEnergyIndex e (x :: xs) = k ∧ (∃ h : k < xs.length, e < xs[k]) ∧
        ∀ (j : Nat) (y : K), j < k → xs[j]? = some y → y ≤ e := by
  unfold findEnergyIndex
  simp only [List.tail_cons]
  cases hf : xs.findIdx? (fun x => decide (e < x)) with
  | none =>
      left
      refine ⟨rfl, fun y hy => ?_⟩
      have := List.findIdx?_eq_none_iff.mp hf y hy
      simpa using this
  | some k =>
      right
      rw [List.findIdx?_eq_some_iff_getElem] at hf
      obtain ⟨h, h1, h2⟩ := hf
      refine ⟨k, rfl, ⟨h, by simpa using h1⟩, ?_⟩
      intro j y hj hy
      have hjl : j < xs.length := by omega
      have := h2 j hj
      rw [List.getElem?_eq_getElem hjl] at hy
      cases hy
      simpa using this

/-- **C53.** Inside the table: for a row at least as long as the grid and an energy from the
first grid point up to some larger grid point, the interpolation is defined, its two neighbouring grid
points enclose the energy, its value is between the two tabulated values, and equals the tabulated value at
the lower grid point. -/
theorem C53_inside (grid row : List K) (hlen : grid.length ≤ row.length) (e : K)
    (h0 : ∀ g ∈ grid.head?, g ≤ e) (h1 : ∃ g ∈ grid, e < g) :
    ∃ (k : Nat) (e1 e2 t1 t2 v : K), grid[k]? = some e1 ∧ grid[k + 1]? = some e2 ∧ row[k]? = some t1 ∧
      row[k + 1]? = some t2 ∧ e1 ≤ e ∧ e < e2 ∧ interpRow grid row e = .ok v ∧ min t1 t2 ≤ v ∧ v ≤ max t1 t2 ∧
      (e = e1 → v = t1) := by
  match grid, hlen, h0, h1 with
  | [], _, _, h1 => simp at h1
  | x :: xs, hlen, h0, h1 =>
      have hx : x ≤ e := h0 x (by simp)
      rcases energyIndex_spec (e := e) (x := x) (xs := xs) with ⟨_, hn⟩ | ⟨k, hk, ⟨hkl, hke⟩, hb⟩
      · obtain ⟨g, hg, hge⟩ := h1
        rcases List.mem_cons.mp hg with rfl | hg
        · linarith
        · have := hn g hg; linarith
      · have hkl' : k + 1 < (x :: xs).length := by simp; omega
        have g1 : (x :: xs)[k]? = some ((x :: xs)[k]'(by omega)) := List.getElem?_eq_getElem _
        have g2 : (x :: xs)[k + 1]? = some xs[k] := by simp [List.getElem?_eq_getElem hkl]
        have r1 : row[k]? = some (row[k]'(by omega)) := List.getElem?_eq_getElem _
        have r2 : row[k + 1]? = some (row[k + 1]'(by omega)) := List.getElem?_eq_getElem _
        have hlo : (x :: xs)[k]'(by omega) ≤ e := by
          cases k with
          | zero => simpa using hx
          | succ j =>
              have := hb j (xs[j]'(by omega)) (by omega) (List.getElem?_eq_getElem _)
              simpa using this
        generalize (x :: xs)[k]'(by omega) = e1 at g1 hlo
        generalize xs[k] = e2 at g2 hke
        generalize row[k]'(by omega) = t1 at r1
        generalize row[k + 1]'(by omega) = t2 at r2
        refine ⟨k, e1, e2, t1, t2, (t2 - t1) / (e2 - e1) * (e - e1) + t1, g1, g2, r1, r2, hlo, hke, ?_, ?_⟩
        · unfold interpRow
          rw [hk]
          have c : (k : Int) + 1 = ((k + 1 : Nat) : Int) := by push_cast; rfl
          rw [c]
          rw [readAt_ok_iff.mpr ⟨by omega, by rw [Int.toNat_natCast]; exact g1⟩]
          simp only [Res.bind]
          rw [readAt_ok_iff.mpr ⟨by omega, by rw [Int.toNat_natCast]; exact g2⟩]
          simp only [Res.bind]
          rw [readAt_ok_iff.mpr ⟨by omega, by rw [Int.toNat_natCast]; exact r1⟩]
          simp only [Res.bind]
          rw [readAt_ok_iff.mpr ⟨by omega, by rw [Int.toNat_natCast]; exact r2⟩]
        · have hd : 0 < e2 - e1 := by linarith
          have f0 : 0 ≤ (e - e1) / (e2 - e1) := div_nonneg (by linarith) hd.le
          have f1 : (e - e1) / (e2 - e1) ≤ 1 := (div_le_one hd).mpr (by linarith)
          have hn : e = e1 → (e - e1) / (e2 - e1) = 0 := by intro h; rw [h]; simp
          have hv : (t2 - t1) / (e2 - e1) * (e - e1) + t1 = t1 + (t2 - t1) * ((e - e1) / (e2 - e1)) := by ring
          rw [hv]
          generalize (e - e1) / (e2 - e1) = f at *
          refine ⟨?_, ?_, ?_⟩
          · rcases le_total t1 t2 with h | h
            · rw [min_eq_left h]; nlinarith
            · rw [min_eq_right h]; nlinarith
          · rcases le_total t1 t2 with h | h
            · rw [max_eq_right h]; nlinarith
            · rw [max_eq_left h]; nlinarith
          · intro h; rw [hn h]; simp

/-- **C53.** At every grid point but the last the tabulated value is reproduced, for an increasing grid. -/
theorem C53_nodes (grid row : List K) (hsort : grid.Pairwise (· < ·)) (hlen : grid.length ≤ row.length) (k : Nat)
    (g : K) (hg : grid[k]? = some g) (hk : k + 1 < grid.length) :
    ∃ t, row[k]? = some t ∧ interpRow grid row g = .ok t := by
  rw [List.pairwise_iff_getElem] at hsort
  have hk0 : k < grid.length := by omega
  have hgk : grid[k] = g := by rw [List.getElem?_eq_getElem hk0] at hg; exact Option.some.inj hg
  have hhead : ∀ x ∈ grid.head?, x ≤ g := by
    intro x hx
    rw [List.head?_eq_getElem?, List.getElem?_eq_getElem (by omega)] at hx
    have hx : grid[0] = x := by simpa using hx
    rcases Nat.eq_zero_or_pos k with h | h
    · subst h; rw [← hx, hgk]
    · have := hsort 0 k (by omega) hk0 h
      rw [hx, hgk] at this
      exact this.le
  have hup : ∃ x ∈ grid, g < x := ⟨grid[k + 1], List.getElem_mem _, by rw [← hgk]; exact hsort k (k + 1) hk0 hk (by omega)⟩
  obtain ⟨j, e1, e2, t1, t2, v, a1, a2, a3, _, a5, a6, a7, _, _, a10⟩ := C53_inside grid row hlen g hhead hup
  have hj1 : j + 1 < grid.length := by
    by_contra hc
    rw [List.getElem?_eq_none (by omega)] at a2
    cases a2
  have b1 : grid[j] = e1 := by rw [List.getElem?_eq_getElem (by omega)] at a1; exact Option.some.inj a1
  have b2 : grid[j + 1] = e2 := by rw [List.getElem?_eq_getElem hj1] at a2; exact Option.some.inj a2
  have hjk : j = k := by
    rcases lt_trichotomy j k with h | h | h
    · exfalso
      rcases Nat.eq_or_lt_of_le (show j + 1 ≤ k by omega) with h2 | h2
      · subst h2; rw [← b2, hgk] at a6; exact lt_irrefl _ a6
      · have := hsort (j + 1) k hj1 hk0 h2
        rw [b2, hgk] at this
        exact lt_asymm this a6
    · exact h
    · exfalso
      have := hsort k j hk0 (by omega) h
      rw [hgk, b1] at this
      exact absurd a5 (not_le.mpr this)
  subst hjk
  have : g = e1 := by rw [← hgk, b1]
  exact ⟨t1, a3, by rw [a7, a10 this]⟩

/-- **C53**, negation outside: at or above the last grid point the index is -1 and the array is read before
its beginning, whatever the table. -/
theorem C53_beyond (grid row : List K) (e : K) (h : ∀ g ∈ grid.tail, g ≤ e) : interpRow grid row e = .ub := by
  have : findEnergyIndex e grid = -1 := by
    unfold findEnergyIndex
    rw [List.findIdx?_eq_none_iff.mpr (fun x hx => by simpa using h x hx)]
  unfold interpRow
  rw [this, readAt_neg (by omega)]
  rfl

def itpGrid : List ℚ := [0, 1, 3, 7]
def itpRow : List ℚ := [5, 2, 4, 4]

example : interpRow itpGrid itpRow 2 = .ok 3 ∧ interpRow itpGrid itpRow 1 = .ok 2 ∧ interpRow itpGrid itpRow 7 = .ub ∧
    interpRow itpGrid itpRow (1 / 2) = .ok (7 / 2) := by decide +kernel

/-- Below the first grid point the first interval is extrapolated, outside the tabulated values. -/
example : interpRow itpGrid itpRow (-1) = .ok 8 := by decide +kernel

/-! ## C54 -/

theorem spinRaw_pos (exp : K → K) (hexp : ∀ x, 0 < exp x) (A : Int) (B2 : K) (j : Nat) :
    0 < (2 * spinOf A j + 1) * exp (-(spinOf A j * (spinOf A j + 1)) / (2 * B2)) := by
  apply mul_pos _ (hexp _)
  unfold spinOf
  have : (0 : K) ≤ j := Nat.cast_nonneg j
  split <;> linarith

/-- **C54.** For a positive exponential, any fragment and any spin parameter, the distribution has `nj`
entries, all positive, that add up to one. -/
theorem C54_distribution (exp : K → K) (hexp : ∀ x, 0 < exp x) (nj : Nat) (hnj : 0 < nj) (A : Int) (B2 : K) :
    (spinProb exp nj A B2).length = nj ∧ (∀ p ∈ spinProb exp nj A B2, 0 < p) ∧ (spinProb exp nj A B2).sum = 1 := by
  unfold spinProb
  simp only []
  generalize hr : ((List.range nj).map fun j : Nat =>
    (2 * spinOf A j + 1) * exp (-(spinOf A j * (spinOf A j + 1)) / (2 * B2))) = raw
  have hpos : ∀ p ∈ raw, 0 < p := by
    intro p hp
    rw [← hr, List.mem_map] at hp
    obtain ⟨j, _, rfl⟩ := hp
    exact spinRaw_pos exp hexp A B2 j
  have hlen : raw.length = nj := by rw [← hr]; simp
  have hsum : 0 < raw.sum := List.sum_pos raw hpos (by intro h; rw [h] at hlen; simp at hlen; omega)
  refine ⟨by simp [hlen], ?_, ?_⟩
  · intro p hp
    rw [List.mem_map] at hp
    obtain ⟨q, hq, rfl⟩ := hp
    exact div_pos (hpos q hq) hsum
  · rw [sum_map_div, div_self hsum.ne']

theorem pickSpin_sound (nj : Nat) (hnj : 0 < nj) (ps : List K) (hl : ps.length = nj) :
    Sound (pickSpin nj ps) (fun j => j < nj) := by
  have key : ∀ (N : Nat) (s : List K), s.length ≤ N → Unit01 s → pickSpin nj ps s ≠ .ub ∧
      ∀ j s', pickSpin nj ps s = .ok (j, s') → j < nj ∧ Unit01 s' := by
    intro N
    induction N with
    | zero =>
        intro s hs _
        have : s = [] := List.length_eq_zero_iff.mp (by omega)
        subst this
        simp [pickSpin]
    | succ N ih =>
        intro s hs hu
        match s, hs, hu with
        | [], _, _ => simp [pickSpin]
        | [_], _, _ => simp [pickSpin]
        | r1 :: r2 :: s, hs, hu =>
            have ⟨u1, hs1⟩ := hu.cons
            have ⟨_, hs2⟩ := hs1.cons
            obtain ⟨f0, f1⟩ := floor_unit u1.1 u1.2 (n := (nj : Int)) (by omega)
            rw [Int.cast_natCast] at f0 f1
            have hv : readAt ps ⌊r1 * (nj : K)⌋ = .ok (ps[⌊r1 * (nj : K)⌋.toNat]'(by omega)) :=
              readAt_ok_iff.mpr ⟨f0, List.getElem?_eq_getElem _⟩
            rw [pickSpin, hv]
            simp only []
            by_cases hp : (ps[⌊r1 * (nj : K)⌋.toNat]'(by omega)) < r2
            · rw [if_pos hp]; exact ih s (by simp at hs; omega) hs2
            · rw [if_neg hp]
              refine ⟨by simp, ?_⟩
              intro j s' h
              simp only [Out.ok.injEq, Prod.mk.injEq] at h
              obtain ⟨rfl, rfl⟩ := h
              exact ⟨by omega, hs2⟩
  exact fun s hs => key s.length s le_rfl hs

/-- **C54.** With random numbers in `[0, 1)` and a non-zero spin parameter, no entry outside the distribution
is read, and the spin is one of `0, 1, ..., nj-1` for even mass number and of `1/2, ..., nj-1/2` for odd mass
number (negative mass numbers included). -/
theorem C54_spin (exp : K → K) (nj : Nat) (hnj : 0 < nj) (A : Int) (B2 : K) (hB : B2 ≠ 0) (s : List K)
    (hs : Unit01 s) : spin exp nj A B2 s ≠ .ub ∧ ∀ J s', spin exp nj A B2 s = .ok (J, s') →
      ∃ j : Nat, j < nj ∧ (A % 2 = 0 → J = j) ∧ (A % 2 ≠ 0 → J = j + 1 / 2) := by
  have hl : (spinProb exp nj A B2).length = nj := by simp [spinProb]
  obtain ⟨h1, h2⟩ := pickSpin_sound nj hnj _ hl s hs
  unfold spin
  rw [if_neg hB]
  constructor
  · intro h
    rw [Rnd.bind_run] at h
    generalize hq : pickSpin nj (spinProb exp nj A B2) s = o at h h1
    rcases o with ⟨z, s'⟩ | _ | _ | _ <;> simp_all
  · intro J s' h
    rw [Rnd.bind_ok] at h
    obtain ⟨j, s1, h3, h⟩ := h
    rw [Rnd.pure_ok] at h
    obtain ⟨rfl, _⟩ := h
    refine ⟨j, (h2 j s1 h3).1, ?_, ?_⟩
    · intro ha; unfold spinOf; rw [if_pos ha]
    · intro ha; unfold spinOf; rw [if_neg ha]

/-- **C54.** The parity is `1` or `-1`. -/
theorem C54_parity (s s' : List K) (p : Int) (h : parity s = .ok (p, s')) :
    ∃ r, s = r :: s' ∧ ((r < 1 / 2 ∧ p = -1) ∨ (1 / 2 ≤ r ∧ p = 1)) := by
  unfold parity at h
  rw [Rnd.bind_ok] at h
  obtain ⟨r, s1, h1, h⟩ := h
  rw [Rnd.draw_ok] at h1
  rw [Rnd.pure_ok] at h
  obtain ⟨h, rfl⟩ := h
  refine ⟨r, h1, ?_⟩
  by_cases hr : r < 1 / 2
  · rw [if_pos hr] at h; exact Or.inl ⟨hr, h.symm⟩
  · rw [if_neg hr] at h; exact Or.inr ⟨not_lt.mp hr, h.symm⟩

/-- A positive stand-in for the exponential. -/
def smpExp (x : ℚ) : ℚ := 1 / (1 + x * x)

example : (∀ x, 0 < smpExp x) ∧ spin smpExp 3 7 2 [1 / 2, 1 / 8, 1 / 9] = .ok (3 / 2, [1 / 9]) ∧
    spin smpExp 3 8 2 [1 / 2, 7 / 8, 5 / 6, 1 / 8, 1 / 9] = .ok (2, [1 / 9]) ∧
    parity [1 / 3, (4 : ℚ)] = .ok (-1, [4]) := by
  refine ⟨fun x => ?_, by decide +kernel, by decide +kernel, by decide +kernel⟩
  unfold smpExp
  have := mul_self_nonneg x
  positivity

end

/-! ## Probabilities of one attempt -/

/-- **C54.** One attempt of the spin loop returns index `j` with probability `p_j / nj`: the accepted spins
follow the tabulated distribution. -/
theorem C54_probability (nj : Nat) (ps : List ℝ) (hps : ∀ p ∈ ps, 0 ≤ p ∧ p ≤ 1) (hl : ps.length = nj) (j : Nat)
    (p : ℝ) (hp : ps[j]? = some p) :
    volume {x : ℝ × ℝ | (0 ≤ x.1 ∧ x.1 < 1) ∧ (0 ≤ x.2 ∧ x.2 < 1) ∧ pickSpin nj ps [x.1, x.2] = .ok (j, [])}
      = ENNReal.ofReal (p / nj) := by
  have hj : j < nj := by
    rw [← hl]
    by_contra hc
    rw [List.getElem?_eq_none (by omega)] at hp
    cases hp
  have hpb := hps p (List.mem_of_getElem? hp)
  have : {x : ℝ × ℝ | (0 ≤ x.1 ∧ x.1 < 1) ∧ (0 ≤ x.2 ∧ x.2 < 1) ∧ pickSpin nj ps [x.1, x.2] = .ok (j, [])}
      = Accept.region 0 j nj 1 p := by
    ext ⟨a, b⟩
    simp only [Accept.region, Set.mem_ofPred_eq, Int.cast_zero, add_zero, zero_add, mul_one]
    refine and_congr_right fun ha => and_congr_right fun _ => ?_
    rw [pickSpin]
    have f0 : 0 ≤ ⌊a * (nj : ℝ)⌋ := Int.floor_nonneg.mpr (mul_nonneg ha.1 (Nat.cast_nonneg nj))
    constructor
    · intro h
      generalize hc : readAt ps ⌊a * (nj : ℝ)⌋ = o at h
      rcases o with q | _ | _
      · simp only [] at h
        split at h
        · simp [pickSpin] at h
        · rename_i hq
          simp only [Out.ok.injEq, Prod.mk.injEq, and_true] at h
          have h' : ⌊a * (nj : ℝ)⌋ = j := by omega
          rw [h', readAt_ok_iff, Int.toNat_natCast, hp] at hc
          cases hc.2
          exact ⟨h', not_lt.mp hq⟩
      · simp at h
      · simp at h
    · rintro ⟨h1, h2⟩
      have : readAt ps (j : Int) = .ok p := readAt_ok_iff.mpr ⟨by omega, by rw [Int.toNat_natCast]; exact hp⟩
      rw [h1, this]
      simp only []
      rw [if_neg (not_lt.mpr h2), Int.toNat_natCast]
  rw [this, Accept.volume_region 0 j nj 1 p (by omega) (by omega) one_pos hpb.1, div_one, min_eq_right hpb.2]
  congr 1
  ring

/-- The real exponential meets the hypothesis of `C54_distribution`, and the resulting distribution that of
`C54_probability`. -/
example (B2 : ℝ) : ∀ p ∈ spinProb Real.exp 50 97 B2, 0 ≤ p ∧ p ≤ 1 := by
  obtain ⟨_, h1, h2⟩ := C54_distribution Real.exp Real.exp_pos 50 (by norm_num) 97 B2
  intro p hp
  refine ⟨(h1 p hp).le, ?_⟩
  rw [← h2]
  exact List.single_le_sum (fun x hx => (h1 x hx).le) p hp

/-- One attempt of the charge loop as a region. -/
theorem charge_region (t : Tab ℝ) (hd : 0 ≤ t.dZ) (A z : Int) (hz0 : -t.dZ ≤ z) (mz w : ℝ)
    (hw : readAt2 t.yza (z + t.dZ) A = .ok w) (N : Nat) (hN : (N : Int) = 2 * t.dZ + 1) :
    {x : ℝ × ℝ | (0 ≤ x.1 ∧ x.1 < 1) ∧ (0 ≤ x.2 ∧ x.2 < 1) ∧ pickZ t A mz [x.1, x.2] = .ok (z, [])}
      = Accept.region (-t.dZ) (z + t.dZ) N mz w := by
  have hc : ∀ a : ℝ, chargeOf t a = ⌊a * (N : ℝ) + ((-t.dZ : Int) : ℝ)⌋ := by
    intro a
    unfold chargeOf
    rw [show t.dZ - (-t.dZ) + 1 = (N : Int) by omega, Int.cast_natCast]
  ext ⟨a, b⟩
  simp only [Accept.region, Set.mem_ofPred_eq]
  refine and_congr_right fun _ => and_congr_right fun _ => ?_
  rw [← hc, show -t.dZ + (z + t.dZ) = z by ring, pickZ]
  constructor
  · intro h
    generalize hr : readAt2 t.yza (chargeOf t a + t.dZ) A = o at h
    rcases o with q | _ | _
    · simp only [] at h
      split at h
      · simp [pickZ] at h
      · rename_i hq
        simp only [Out.ok.injEq, Prod.mk.injEq, and_true] at h
        rw [h, hw] at hr
        cases hr
        exact ⟨h, not_lt.mp hq⟩
    · simp at h
    · simp at h
  · rintro ⟨h1, h2⟩
    rw [h1, hw]
    simp only []
    rw [if_neg (not_lt.mpr h2)]

/-- **C48.** The first attempts of the two loops return mass `A` and charge offset `z` with probability
proportional to `Y(A) * Y(z, A)`: exactly `Y(A)/((Amax-Amin+1)*max Y) * Y(z,A)/((2 dZ+1)*max_z Y(z,A))`. -/
theorem C48_probability (t : Tab ℝ) (hd : 0 ≤ t.dZ) (A z : Int) (hA0 : t.amin ≤ A) (hA1 : A ≤ t.amax)
    (hz0 : -t.dZ ≤ z) (hz1 : z ≤ t.dZ) (v w mz : ℝ) (hv : readAt t.ya A = .ok v) (hm : readAt t.mz A = .ok mz)
    (hw : readAt2 t.yza (z + t.dZ) A = .ok w) (hv0 : 0 ≤ v) (hv1 : v ≤ t.maxA) (hM : 0 < t.maxA) (hw0 : 0 ≤ w)
    (hw1 : w ≤ mz) (hmz : 0 < mz) :
    volume {x : (ℝ × ℝ) × (ℝ × ℝ) | ((0 ≤ x.1.1 ∧ x.1.1 < 1) ∧ (0 ≤ x.1.2 ∧ x.1.2 < 1)) ∧
        ((0 ≤ x.2.1 ∧ x.2.1 < 1) ∧ (0 ≤ x.2.2 ∧ x.2.2 < 1)) ∧
        pickAZ t [x.1.1, x.1.2, x.2.1, x.2.2] = .ok ((A, z), [])}
      = ENNReal.ofReal (v / ((t.amax - t.amin + 1 : Int) * t.maxA) * (w / ((2 * t.dZ + 1 : Int) * mz))) := by
  obtain ⟨N, hN⟩ := Int.eq_ofNat_of_zero_le (show 0 ≤ t.amax - t.amin + 1 by omega)
  obtain ⟨Z, hZ⟩ := Int.eq_ofNat_of_zero_le (show 0 ≤ 2 * t.dZ + 1 by omega)
  have hmass : ∀ a : ℝ, massOf t a = ⌊a * (N : ℝ) + ((t.amin : Int) : ℝ)⌋ := by
    intro a
    unfold massOf
    rw [hN, Int.cast_natCast]
  have key : {x : (ℝ × ℝ) × (ℝ × ℝ) | ((0 ≤ x.1.1 ∧ x.1.1 < 1) ∧ (0 ≤ x.1.2 ∧ x.1.2 < 1)) ∧
        ((0 ≤ x.2.1 ∧ x.2.1 < 1) ∧ (0 ≤ x.2.2 ∧ x.2.2 < 1)) ∧
        pickAZ t [x.1.1, x.1.2, x.2.1, x.2.2] = .ok ((A, z), [])}
      = Accept.region t.amin (A - t.amin) N t.maxA v ×ˢ Accept.region (-t.dZ) (z + t.dZ) Z mz w := by
    rw [← charge_region t hd A z hz0 mz w hw Z hZ.symm]
    ext ⟨⟨a, b⟩, ⟨c, d⟩⟩
    simp only [Accept.region, Set.mem_prod, Set.mem_ofPred_eq]
    rw [← hmass, show t.amin + (A - t.amin) = A by ring]
    have hstep : pickAZ t [a, b, c, d] = .ok ((A, z), []) ↔
        (massOf t a = A ∧ b * t.maxA ≤ v) ∧ pickZ t A mz [c, d] = .ok (z, []) := by
      rw [pickAZ]
      constructor
      · intro h
        generalize hr : readAt t.ya (massOf t a) = o at h
        rcases o with q | _ | _
        · simp only [] at h
          split at h
          · rename_i hq
            obtain ⟨m', iZ, f1, f2, f3⟩ := withZ_ok h
            simp only [Prod.mk.injEq] at f2
            obtain ⟨f2, rfl⟩ := f2
            rw [← f2, hv] at hr
            cases hr
            rw [← f2, hm] at f1
            cases f1
            rw [← f2] at f3
            exact ⟨⟨f2.symm, hq⟩, f3⟩
          · rw [pickAZ] at h
            generalize hr2 : readAt t.ya (massOf t c) = o2 at h
            rcases o2 with q2 | _ | _
            · simp only [] at h
              split at h
              · obtain ⟨m', iZ, _, _, f3⟩ := withZ_ok h
                simp [pickZ] at f3
              · simp [pickAZ] at h
            · simp at h
            · simp at h
        · simp at h
        · simp at h
      · rintro ⟨⟨h1, h2⟩, h3⟩
        rw [h1, hv]
        simp only []
        rw [if_pos h2]
        unfold withZ
        rw [Rnd.bind_of_ok (Rnd.lift_ok.mpr ⟨hm, rfl⟩), Rnd.bind_of_ok h3]
        rfl
    rw [hstep]
    tauto
  rw [key, Measure.volume_eq_prod, Measure.prod_prod, Accept.volume_region _ _ _ _ _ (by omega) (by omega) hM hv0,
    Accept.volume_region _ _ _ _ _ (by omega) (by omega) hmz hw0, min_eq_right ((div_le_one hM).mpr hv1),
    min_eq_right ((div_le_one hmz).mpr hw1), ← ENNReal.ofReal_mul (by positivity), hN, hZ]
  congr 1
  rw [Int.cast_natCast, Int.cast_natCast]
  have : (N : ℝ) ≠ 0 := by
    have : (0 : Int) < N := by omega
    have : 0 < N := by omega
    positivity
  have : (Z : ℝ) ≠ 0 := by
    have : 0 < Z := by omega
    positivity
  field_simp

example : ∃ t : Tab ℝ, 0 ≤ t.dZ ∧ t.amin ≤ 2 ∧ 2 ≤ t.amax ∧ readAt t.ya 2 = .ok (1 / 2) ∧ readAt t.mz 2 = .ok 1 ∧
    readAt2 t.yza (1 + t.dZ) 2 = .ok (1 / 4) ∧ (1 / 2 : ℝ) ≤ t.maxA :=
  ⟨⟨1, 2, 3 / 4, 1, [0, 3 / 4, 1 / 2], [[0, 0, 1], [0, 0, 1], [0, 0, 1 / 4]], [0, 0, 1], [0, 0, 0]⟩, by norm_num,
    by norm_num, by norm_num, rfl, rfl, rfl, by norm_num⟩

end CGMF.Props

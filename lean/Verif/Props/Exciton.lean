import Verif.Proofs.ExcitonReal

/-!
# Properties of the exciton model

C77 occupation probabilities, C78 state densities and transition rates, C79 pre-fission neutron spectra.
-/

set_option linter.unusedSectionVars false

namespace CGMF.Props

open CGMF.Exc CGMF.ExcSpec

variable {K : Type} [Field K] [LinearOrder K] [IsStrictOrderedRing K]

/-! ## C77 Occupation probabilities -/

/-- The iteration for the occupation probabilities always converges: "P calc. not converged" is never printed,
whatever the rates. -/
theorem C77_converges (r : Rates K) : (occupation r).2 = true := by
  obtain ⟨P, hP⟩ := balanced_exists r
  obtain ⟨p, h, _⟩ := occLoop_conv hP 0 99 (fun _ _ => 0, true) (by omega) (by omega) (fun i j _ _ h => by omega)
  show (occLoop r 99 (fun _ _ => 0, true)).2 = true
  rw [h]

/-- The two-component master equation has exactly one solution on the 36 configurations. -/
theorem C77_unique (r : Rates K) :
    (∃ P, Balanced r P) ∧ ∀ P Q, Balanced r P → Balanced r Q → ∀ i j, i < 6 → j < 6 → P i j = Q i j :=
  ⟨balanced_exists r, fun _ _ hP hQ => balanced_unique hP hQ⟩

/-- The returned occupation probabilities are that solution, from below, to one part in a million for each pair
created. -/
theorem C77_solution (r : Rates K) (hr : NonNeg r) (P : Nat → Nat → K) (hP : Balanced r P) (i j : Nat)
    (hi : i < 6) (hj : j < 6) :
    (1 - 1 / 1000000) ^ (i + j) * P i j ≤ (occupation r).1 i j ∧ (occupation r).1 i j ≤ P i j := by
  obtain ⟨p, h, hc, hg⟩ := occLoop_good hr hP 0 99 (fun _ _ => 0, true) (by omega) (by omega) (fun i j _ _ h => by omega)
    (good_start hr)
  have : (occupation r).1 = (sweep r p).1 := by
    show (occLoop r 99 (fun _ _ => 0, true)).1 = _
    rw [h]
  rw [this]
  exact close hr hP hg hc i j hi hj

/-- No occupation probability is negative, and the initial configuration has probability one. -/
theorem C77_nonneg (r : Rates K) (hr : NonNeg r) :
    (occupation r).1 0 0 = 1 ∧ ∀ i j, i < 6 → j < 6 → 0 ≤ (occupation r).1 i j := by
  obtain ⟨P, hP⟩ := balanced_exists r
  obtain ⟨p, h, hc, hg⟩ := occLoop_good hr hP 0 99 (fun _ _ => 0, true) (by omega) (by omega) (fun i j _ _ h => by omega)
    (good_start hr)
  have : (occupation r).1 = (sweep r p).1 := by
    show (occLoop r 99 (fun _ _ => 0, true)).1 = _
    rw [h]
  rw [this]
  exact ⟨sweep_corner r p, fun i j hi hj => sweep_nonneg hr (fun a b ha hb => (hg a b ha hb).1) i j hi hj⟩

namespace ExcDemo

/-- Rates that stop after one pair, with conversion between a proton and a neutron pair. -/
def rates : Rates ℚ where
  t1 := fun _ _ => 1
  t2 := fun _ _ => 1
  tzp := fun i j => if i + j = 0 then 1 / 2 else 0
  tnp := fun i j => if i + j = 0 then 1 / 3 else 0
  tz0 := fun i j => if i = 1 ∧ j = 0 then 1 / 4 else 0
  tn0 := fun i j => if i = 0 ∧ j = 1 then 1 / 5 else 0

/-- Their solution. -/
def occ : Nat → Nat → ℚ
  | 0, 0 => 1
  | 1, 0 => 1 / 2 + 1 / 5 * (1 / 3)
  | 0, 1 => 1 / 3 + 1 / 4 * (1 / 2)
  | _, _ => 0

theorem rates_nonneg : NonNeg rates := by
  refine ⟨?_, ?_, ?_, ?_, ?_, ?_⟩ <;> intro i j _ _ <;> simp only [rates]
  · exact zero_le_one
  · exact zero_le_one
  all_goals split <;> norm_num

theorem occ_balanced : Balanced rates occ := by
  refine ⟨rfl, ?_⟩
  have : ∀ c ∈ cells, c ≠ (0, 0) → occ c.1 c.2 = arrivals rates occ c.1 c.2 := by decide +kernel
  intro i j hi hj h0
  exact this (i, j) ((mem_cells _).2 ⟨hi, hj⟩) h0

/-- One proton pair: between 17/30 less one part in a million and 17/30. -/
example : (1 - 1 / 1000000) * (17 / 30) ≤ (occupation rates).1 1 0 ∧ (occupation rates).1 1 0 ≤ 17 / 30 := by
  have h := C77_solution rates rates_nonneg occ occ_balanced 1 0 (by omega) (by omega)
  have e : occ 1 0 = 17 / 30 := by norm_num [occ]
  rw [e] at h
  simpa using h

/-- The bound is not void: the probability of one neutron pair is positive. -/
example : 0 < (occupation rates).1 0 1 := by
  have h := (C77_solution rates rates_nonneg occ occ_balanced 0 1 (by omega) (by omega)).1
  have e : occ 0 1 = 11 / 24 := by norm_num [occ]
  rw [e] at h
  have : (0 : ℚ) < (1 - 1 / 1000000) ^ (0 + 1) * (11 / 24) := by norm_num
  exact lt_of_lt_of_le this h

end ExcDemo

/-! ## C78 State densities and transition rates -/

/-- The density of every configuration the rates ask for is computed without reading outside the table of
factorials. -/
theorem C78_in_table (F : Fns K) (pc : Int → K → K) (spd : SPdens K) (x : K) (i j : Nat) (hi : i < 6) (hj : j < 6)
    (a b c d : Int) (ha : a ≤ 1) (hb : b ≤ 1) (hc : c ≤ 1) (hd : d ≤ 1) :
    ∃ v, stateDensity F pc spd x ((confAt i j).add a b c d) = .ok v := by
  refine stateDensity_ok F pc spd x _ ?_
  unfold InTable confAt Exconf.add
  refine ⟨?_, ?_, ?_, ?_⟩ <;> simp only [] <;> omega

/-- The table has 31 entries: a configuration with 32 excitons reads outside it. -/
theorem C78_table_end (F : Fns K) (pc : Int → K → K) (spd : SPdens K) (x : K) (hx : 0 < x) (hz : pc 32 x = 0)
    (h : pauli spd.gz spd.gn ⟨8, 8, 8, 8⟩ ≤ x) : stateDensity F pc spd x ⟨8, 8, 8, 8⟩ = .ub := by
  have f8 : ∃ v : K, fact (K := K) 8 = .ok v := fact_ok 8 (by omega) (by omega)
  obtain ⟨v, hv⟩ := f8
  have f31 : fact (K := K) (32 - 1) = .ub := by
    have : readAt factTable (32 - 1) = .ub := by decide
    unfold fact; rw [this]; rfl
  unfold stateDensity
  simp only []
  rw [if_neg (by decide), if_neg (by decide), if_neg (not_le.2 hx)]
  rw [show (8 : Int) + 8 + (8 + 8) = 32 from rfl, hz, sub_zero]
  rw [if_neg (by rw [not_or, not_lt, not_lt]; exact ⟨hx.le, h⟩)]
  rw [hv, f31]; rfl

/-- The Pauli energy is the sum over the pairs of the energies `0, 1/g, 2/g, …` that each finds already occupied
(for the neutrons with the incident one: half a spacing more per level); it is never negative and never decreases
when a pair is created. -/
theorem C78_pauli (gz gn : K) (hz : 0 < gz) (hn : 0 < gn) :
    (∀ i j : Nat, pauli gz gn ⟨i, i, j, j⟩ =
      ((List.range i).map fun k : Nat => (k : K) / gz).sum + ((List.range j).map fun k : Nat => (k : K) / gn).sum) ∧
    (∀ i j : Nat, pauli gz gn (confAt i j) =
      ((List.range i).map fun k : Nat => (k : K) / gz).sum + ((List.range (j + 1)).map fun k : Nat => ((k : K) + 1 / 2) / gn).sum) ∧
    (∀ a b c d : Nat, 0 ≤ pauli gz gn ⟨a, b, c, d⟩ ∧
      pauli gz gn ⟨a, b, c, d⟩ ≤ pauli gz gn ((⟨a, b, c, d⟩ : Exconf).add 1 1 0 0) ∧
      pauli gz gn ⟨a, b, c, d⟩ ≤ pauli gz gn ((⟨a, b, c, d⟩ : Exconf).add 0 0 1 1)) := by
  have s1 : ∀ (g : K) (n : Nat), ((List.range n).map fun k : Nat => (k : K) / g).sum = ((n : K) * n - n) / 2 / g := by
    intro g n
    induction n with
    | zero => simp
    | succ n ih => rw [List.range_succ, List.map_append, List.sum_append, ih]; push_cast; simp; ring
  have s2 : ∀ (g : K) (n : Nat), ((List.range n).map fun k : Nat => ((k : K) + 1 / 2) / g).sum = (n : K) * n / 2 / g := by
    intro g n
    induction n with
    | zero => simp
    | succ n ih => rw [List.range_succ, List.map_append, List.sum_append, ih]; push_cast; simp; ring
  have hneg : ∀ a b c d : Nat, ¬ ((a : Int) < 0 ∨ (b : Int) < 0 ∨ (c : Int) < 0 ∨ (d : Int) < 0) := by
    intro a b c d; omega
  have val : ∀ a b c d : Nat, pauli gz gn ⟨a, b, c, d⟩ =
      (((max a b : Nat) : K) * (max a b : Nat) - ((a : K) * a + b * b + a + b) / 4) / gz +
      (((max c d : Nat) : K) * (max c d : Nat) - ((c : K) * c + d * d + c + d) / 4) / gn := by
    intro a b c d
    unfold pauli
    simp only []
    rw [if_neg (hneg a b c d)]
    push_cast
    rfl
  -- one kind
  have key : ∀ a b : Nat, 0 ≤ ((max a b : Nat) : K) * (max a b : Nat) - ((a : K) * a + b * b + a + b) / 4 ∧
      ((max a b : Nat) : K) * (max a b : Nat) - ((a : K) * a + b * b + a + b) / 4 ≤
      ((max (a + 1) (b + 1) : Nat) : K) * (max (a + 1) (b + 1) : Nat) -
        (((a + 1 : Nat) : K) * (a + 1 : Nat) + (b + 1 : Nat) * (b + 1 : Nat) + (a + 1 : Nat) + (b + 1 : Nat)) / 4 := by
    intro a b
    have hm : max (a + 1) (b + 1) = max a b + 1 := by omega
    rw [hm]
    set m := max a b with hmdef
    have ha : (a : K) ≤ m := by exact_mod_cast Nat.le_max_left a b
    have hb : (b : K) ≤ m := by exact_mod_cast Nat.le_max_right a b
    have ha0 : (0 : K) ≤ a := Nat.cast_nonneg a
    have hb0 : (0 : K) ≤ b := Nat.cast_nonneg b
    have hmm : (m : K) ≤ m * m := by
      rcases Nat.eq_zero_or_pos m with h | h
      · rw [h]; simp
      · have : (1 : K) ≤ m := by exact_mod_cast h
        nlinarith
    have haa : (a : K) * a ≤ m * m := mul_le_mul ha ha ha0 (le_trans ha0 ha)
    have hbb : (b : K) * b ≤ m * m := mul_le_mul hb hb hb0 (le_trans hb0 hb)
    constructor
    · linarith
    · push_cast
      nlinarith
  refine ⟨?_, ?_, ?_⟩
  · intro i j
    rw [val, s1, s1, max_self, max_self]
    ring
  · intro i j
    have : confAt i j = ⟨(i : Nat), (i : Nat), ((j + 1 : Nat) : Int), (j : Nat)⟩ := by
      unfold confAt; congr 1; push_cast; ring
    rw [this, val, s1, s2, max_self, Nat.max_eq_left (by omega : j ≤ j + 1)]
    push_cast
    ring
  · intro a b c d
    have e1 : (⟨(a : Int), b, c, d⟩ : Exconf).add 1 1 0 0 = ⟨((a + 1 : Nat) : Int), ((b + 1 : Nat) : Int), (c : Nat), (d : Nat)⟩ := by
      unfold Exconf.add; congr 1 <;> push_cast <;> ring
    have e2 : (⟨(a : Int), b, c, d⟩ : Exconf).add 0 0 1 1 = ⟨(a : Nat), (b : Nat), ((c + 1 : Nat) : Int), ((d + 1 : Nat) : Int)⟩ := by
      unfold Exconf.add; congr 1 <;> push_cast <;> ring
    rw [e1, e2, val, val, val]
    obtain ⟨z0, z1⟩ := key a b
    obtain ⟨n0, n1⟩ := key c d
    exact ⟨add_nonneg (div_nonneg z0 hz.le) (div_nonneg n0 hn.le),
      add_le_add_left (div_le_div_of_nonneg_right z1 hz.le) _,
      add_le_add_right (div_le_div_of_nonneg_right n1 hn.le) _⟩

/-- Two proton pairs and three neutrons with two holes. -/
example : pauli (2 : ℚ) 3 (confAt 2 2) = 1 / 2 + 3 / 2 := by decide +kernel

/-- The pairing correction lies between zero and the pairing energy. -/
theorem C78_pairing (nc : ℝ) (n : Int) (hn : 0 ≤ n) (hnc : 0 < nc) (hc : (n : ℝ) ≤ 256 * nc) (ex : ℝ) (hx : 0 < ex)
    (p : SPdens ℝ) (hp : 0 ≤ p.pairing) :
    0 ≤ pairingCorr realFns nc n ex p ∧ pairingCorr realFns nc n ex p ≤ p.pairing :=
  pairingCorr_range nc n hn hnc hc ex hx p hp

/-- Hypotheses met: ten excitons, critical number 5. -/
example (p : SPdens ℝ) (hp : p.pairing = 1) : pairingCorr realFns 5 10 20 p ≤ 1 :=
  hp ▸ (C78_pairing 5 10 (by norm_num) (by norm_num) (by norm_num) 20 (by norm_num) p (by rw [hp]; norm_num)).2

/-- Up to the well depth of 38 MeV no state density is negative, none is positive below the Pauli energy, and none
at or below zero energy. -/
theorem C78_density (F : Fns K) (hF : LibM F) (pc : Int → K → K) (hpc : ∀ n x, 1 ≤ n → n ≤ 31 → 0 < x → 0 ≤ pc n x)
    (spd : SPdens K) (hz : 0 ≤ spd.gz) (hn : 0 ≤ spd.gn) (x : K) (hx : x ≤ 38) (e : Exconf) (he : InTable e) (v : K)
    (h : stateDensity F pc spd x e = .ok v) :
    0 ≤ v ∧ (v ≠ 0 → pauli spd.gz spd.gn e ≤ x ∧ 0 < x) := by
  refine ⟨stateDensity_nonneg hF pc hpc spd hz hn x hx e he v h, fun hv => ⟨stateDensity_above pc hpc spd x e he v h hv, ?_⟩⟩
  by_contra c
  exact hv (stateDensity_zero pc spd x (not_lt.1 c) e v h)

/-- The squared matrix elements are positive, and 1.5 times larger between unlike nucleons. -/
theorem C78_matrix (a n ex : K) (ha : 0 < a) (hn : 0 < n) (hx : 0 ≤ ex) :
    0 < (mSquare a n ex).1 ∧ (mSquare a n ex).2 = 3 / 2 * (mSquare a n ex).1 := by
  refine ⟨?_, rfl⟩
  unfold mSquare
  have : 0 ≤ ex / n := div_nonneg hx hn.le
  positivity

/-- For a neutron below 38 MeV of total excitation all creation and conversion rates and both lifetimes of all 36
configurations are non-negative: the integrals over an empty energy range, whose step is negative, vanish. -/
theorem C78_rates (nc : ℝ) (hnc : 31 ≤ 256 * nc) (spd : SPdens ℝ) (hp : 0 ≤ spd.pairing) (hz : 0 < spd.gz)
    (hn : 0 < spd.gn) (E : ℝ) (hE : E ≤ 38) (q : Nat → Nat → Preeq ℝ) (lz ln : ℝ) (hlz : 0 ≤ lz) (hln : 0 ≤ ln)
    (wk : Nat → Nat → ℝ)
    (hq : ∀ i j, i < 6 → j < 6 → Composite realFns (fun n x => pairingCorr realFns nc n x spd) spd E (q i j) i j) :
    NonNeg (ratesOf q lz ln wk) := by
  refine ratesOf_nonneg libM_real ?_ hz hn hE hq hlz hln
  intro n x h1 h2 hx
  have hnc0 : 0 < nc := by linarith
  have : (n : ℝ) ≤ 31 := by exact_mod_cast h2
  exact (pairingCorr_range nc n (by omega) hnc0 (by linarith) x hx spd hp).1

/-- Rates of the single exciton. -/
theorem C78_single (F : Fns K) (hF : LibM F) (pi2 E top own other g g' m m' v well : K) (hE : E ≤ 38) (h1 : 0 ≤ pi2)
    (h2 : 0 ≤ own) (h3 : 0 ≤ other) (h4 : 0 ≤ g) (h5 : 0 ≤ g') (h6 : 0 ≤ m) (h7 : 0 ≤ m')
    (hw : finiteWell F 3 1 E v = .ok well) : 0 ≤ lambdaPlusOne pi2 E top own other g g' m m' well :=
  lambdaPlusOne_nonneg _ _ _ _ _ _ _ _ _ _ h1 h2 h3 h4 h5 h6 h7 (finiteWell_nonneg hF 3 (by omega) 1 E v hE well hw)

/-- Hypotheses met by uranium-236 at 20 MeV. -/
example : ∃ q : Nat → Nat → Preeq ℝ, (∀ i j, i < 6 → j < 6 → (q i j).exTotal = 20) ∧ NonNeg (ratesOf q 1 1 fun _ _ => 1) := by
  have h := fun i j hi hj => composite_exists realFns
    (fun n x => pairingCorr realFns 5 n x ⟨92 / 19.2, 144 / 19.2, 1, 12⟩) ⟨92 / 19.2, 144 / 19.2, 1, 12⟩ 20 1 1 (3 / 2) (3 / 2)
    (by norm_num) (by norm_num) (by norm_num) (by norm_num) i j hi hj
  classical
  refine ⟨fun i j => if hij : i < 6 ∧ j < 6 then Classical.choose (h i j hij.1 hij.2) else
    ⟨20, fun _ _ => 0, fun _ => 0, 0, 0, 0, 0, 0⟩, ?_, ?_⟩
  · intro i j hi hj
    have hij : i < 6 ∧ j < 6 := ⟨hi, hj⟩
    simp only [dif_pos hij]
    exact (Classical.choose_spec (h i j hi hj)).1.total
  · refine C78_rates 5 (by norm_num) ⟨92 / 19.2, 144 / 19.2, 1, 12⟩ (by norm_num) (by norm_num) (by norm_num) 20 (by norm_num)
      _ 1 1 (by norm_num) (by norm_num) _ ?_
    intro i j hi hj
    have hij : i < 6 ∧ j < 6 := ⟨hi, hj⟩
    simp only [dif_pos hij]
    exact (Classical.choose_spec (h i j hi hj)).1

/-- The rates are not the matrix element times a Simpson integral: the end points enter without the matrix
element.  On a constant integrand `a` the code yields `a(e2-e1)(2+298c)/300` and not `c a (e2-e1)`. -/
theorem C78_endpoints (c e1 e2 a : K) :
    simpson c e1 e2 (fun _ => a) = a * (e2 - e1) * (2 + 298 * c) / 300 ∧
    (simpson c e1 e2 (fun _ => a) = c * (a * (e2 - e1)) ↔ c = 1 ∨ a * (e2 - e1) = 0) := by
  refine ⟨simpson_const c e1 e2 a, ?_⟩
  rw [simpson_const]
  constructor
  · intro h
    by_contra hh
    rw [not_or] at hh
    have : (1 - c) * (a * (e2 - e1)) = 0 := by
      field_simp at h
      linarith
    rcases mul_eq_zero.1 this with g | g
    · exact hh.1 (by linarith)
    · exact hh.2 g
  · rintro (rfl | h)
    · ring
    · rw [h]; ring

/-- `c = 0.01`: a constant is integrated to 4.98/300 of its value instead of 0.01. -/
example : simpson (1 / 100 : ℚ) 0 1 (fun _ => 1) = 498 / 30000 := by
  rw [(C78_endpoints _ _ _ _).1]; norm_num

/-! ## C79 Pre-fission neutron spectra -/

/-- The pre-equilibrium spectrum handed to the sampler is non-negative; it adds up to one, its bins keeping their
proportions, unless no bin can be reached, and then it is zero everywhere.  The first bin is always empty. -/
theorem C79_exciton (r : Rates K) (hr : NonNeg r) (wkc : Nat → Nat → Nat → K)
    (hw : ∀ i j k, i < 6 → j < 6 → 0 ≤ wkc i j k) (n : Nat) :
    let raw := (List.range n).map (excSpectrum (occupation r).1 r.t1 wkc)
    let sp := excNormalise raw
    sp.length = n ∧ (∀ x ∈ sp, 0 ≤ x) ∧ (0 < n → sp[0]? = some 0) ∧
      ((sp.sum = 1 ∧ ∀ (k : Nat) v, raw[k]? = some v → sp[k]? = some (v / raw.sum)) ∨ ∀ x ∈ sp, x = 0) := by
  intro raw sp
  have hnn : ∀ x ∈ raw, 0 ≤ x := by
    intro x hx
    obtain ⟨k, _, rfl⟩ := List.mem_map.1 hx
    unfold excSpectrum
    split
    · exact le_rfl
    · refine List.sum_nonneg ?_
      intro y hy
      obtain ⟨c, hc, rfl⟩ := List.mem_map.1 hy
      obtain ⟨c1, c2⟩ := (mem_cells c).1 hc
      exact mul_nonneg (hw _ _ _ c1 c2) (mul_nonneg (hr.t1 _ _ c1 c2) ((C77_nonneg r hr).2 _ _ c1 c2))
  obtain ⟨h1, h2, h3⟩ := excNormalise_spec raw hnn
  have hraw0 : 0 < n → raw[0]? = some 0 := by
    intro hn
    show ((List.range n).map _)[0]? = _
    rw [List.getElem?_map, List.getElem?_range hn]
    simp [excSpectrum]
  refine ⟨by rw [h2]; simp [raw], h1, ?_, ?_⟩
  · intro hn
    rcases h3 with ⟨_, g⟩ | ⟨g, _⟩
    · have := g 0 0 (hraw0 hn)
      rwa [zero_div] at this
    · show (excNormalise raw)[0]? = _
      rw [g]; exact hraw0 hn
  · rcases h3 with g | ⟨g, g'⟩
    · exact Or.inl g
    · right
      intro x hx
      have hx : x ∈ excNormalise raw := hx
      rw [g] at hx
      exact g' x hx

/-- Emission of 1/2 into bin 1 and 1/4 into bin 2 from the initial configuration only: normalised to 2/3 and 1/3. -/
example :
    let wkc : Nat → Nat → Nat → ℚ := fun i j k => if i + j = 0 then (if k = 1 then 1 / 2 else if k = 2 then 1 / 4 else 0) else 0
    excNormalise ((List.range 3).map (excSpectrum (fun i j => if i + j = 0 then 1 else 0) ExcDemo.rates.t1 wkc))
      = [0, 2 / 3, 1 / 3] := by decide +kernel

/-- One emission rate is not negative. -/
theorem C79_emission (x ecms sigr omega : K) (h1 : 0 ≤ x) (h2 : 0 ≤ ecms) (h3 : 0 ≤ sigr) (h4 : 0 ≤ omega) :
    0 ≤ emission x ecms sigr omega := by
  unfold emission; positivity

/-- The evaporation spectrum is non-negative and adds up to one if some bin above threshold has a positive cross
section and level density; a bin not above threshold is empty. -/
theorem C79_evaporation (bins : List (K × K × K)) (hs : ∀ b ∈ bins, 0 ≤ b.2.1 ∧ 0 ≤ b.2.2)
    (hex : ∃ b ∈ bins, 0 < b.1 ∧ 0 < b.2.1 ∧ 0 < b.2.2) :
    ∃ sp, evapSpectrum bins = .ok sp ∧ sp.length = bins.length ∧ (∀ x ∈ sp, 0 ≤ x) ∧ sp.sum = 1 ∧
      ∀ (k : Nat) b, bins[k]? = some b → b.1 ≤ 0 → sp[k]? = some 0 := by
  unfold evapSpectrum
  simp only []
  have hnn : ∀ x ∈ bins.map (fun b => evapValue b.1 b.2.1 b.2.2), 0 ≤ x := by
    intro x hx
    obtain ⟨b, hb, rfl⟩ := List.mem_map.1 hx
    exact evapValue_nonneg _ _ _ (hs b hb).1 (hs b hb).2
  obtain ⟨b, hb, b1, b2, b3⟩ := hex
  have hpos : 0 < (bins.map (fun b => evapValue b.1 b.2.1 b.2.2)).sum := by
    have : 0 < evapValue b.1 b.2.1 b.2.2 := by
      unfold evapValue; rw [if_pos b1]; positivity
    exact lt_of_lt_of_le this (List.single_le_sum hnn _ (List.mem_map.2 ⟨b, hb, rfl⟩))
  rw [if_neg (ne_of_gt hpos)]
  refine ⟨_, rfl, by simp, ?_, ?_, ?_⟩
  · intro x hx
    obtain ⟨y, hy, rfl⟩ := List.mem_map.1 hx
    exact div_nonneg (hnn y hy) hpos.le
  · rw [sum_div, div_self (ne_of_gt hpos)]
  · intro k b hb hle
    rw [List.getElem?_map, List.getElem?_map, hb]
    simp only [Option.map_some]
    unfold evapValue
    rw [if_neg (not_lt.2 hle), zero_div]

/-- Two open bins and a closed one. -/
example : evapSpectrum [((2 : ℚ), 3, 1), (1, 3, 4), (-1, 3, 5)] = .ok [1 / 3, 2 / 3, 0] := by decide +kernel

/-- If no bin is above threshold the spectrum is not a number in every bin. -/
theorem C79_closed (bins : List (K × K × K)) (hne : bins ≠ []) (h : ∀ b ∈ bins, b.1 ≤ 0) : evapSpectrum bins = .ub := by
  unfold evapSpectrum
  simp only []
  have h0 : (bins.map (fun b => evapValue b.1 b.2.1 b.2.2)).sum = 0 := by
    refine List.sum_eq_zero ?_
    intro x hx
    obtain ⟨b, hb, rfl⟩ := List.mem_map.1 hx
    unfold evapValue
    rw [if_neg (not_lt.2 (h b hb))]
  rw [if_pos h0, if_neg]
  rw [List.map_eq_nil_iff]; exact hne

example : evapSpectrum [((0 : ℚ), 3, 1)] = .ub := C79_closed _ (by simp) (by simp)

end CGMF.Props

import Verif.Proofs.FloatDecay
import Verif.Props.FloatDirection

/-!
# C131: energies of the particles of a cascade in double arithmetic

`fl` is any rounding to nearest of the type `double`.  `E` is the energy of the decaying state, `S` the separation energy, and the
residual nucleus has the mesh of `fl (E - S)` (specmc.cpp:643-651).  A bin `k` of the continuum is one with `k < contBins`.
-/

namespace CGMF.Props

open CGMF.Fp

variable {fl : ℝ → ℝ}

/-- **There is a mesh for every energy up to 124 MeV**, and none from 126 MeV on. -/
theorem C131_mesh (h : Double fl) (E : ℝ) : (E ≤ 124 → ∃ n, total fl E = some n) ∧ (126 ≤ E → total fl E = none) := by
  constructor
  · intro hE
    have b := (binEnergy_range h 2499 (by omega)).1
    obtain ⟨j, hj⟩ := search_some (fl := fl) E 2500 0 2499 (by omega) (by omega) (by norm_num at b; linarith)
    exact ⟨j + 1, by simp [total, hj]⟩
  · intro hE
    cases hn : total fl E with
    | none => rfl
    | some n => linarith [total_le h hn]

/-- **The first bin of the mesh is exactly at the energy of the decaying state**, although it is computed as
`E - 0.05*0.5 + 0.05*0.5` with two roundings. -/
theorem C131_top (h : Double fl) {E : ℝ} (hE : IsDouble E) (h1 : 1 / 5 ≤ E) {n : Nat} (hn : total fl E = some n) : excitation fl E n 0 = E :=
  excitation_top h hE h1 (total_ge h1 h hn)

example (h : Double fl) : ∃ n, total fl 8 = some n ∧ excitation fl 8 n 0 = 8 := by
  obtain ⟨n, hn⟩ := (C131_mesh h 8).1 (by norm_num)
  exact ⟨n, hn, C131_top h (by simpa using isFloat_int (p := 53) (emin := -1074) (n := 8) (by norm_num) (by omega) (by omega)) (by norm_num) hn⟩

/-- **A neutron to a bin of the continuum other than the first gets more than 0.0246 MeV**, whatever the random number. -/
theorem C131_neutron_next (h : Double fl) {E S top r : ℝ} {n m k : Nat} (hS : |S| ≤ 64) (hn : total fl E = some n)
    (hm : total fl (fl (E - S)) = some m) (hE : 0 ≤ E) (hk : k < contBins fl (fl (E - S)) m top) (h1 : 1 ≤ k) (hr : 0 ≤ r) (hr1 : r ≤ 1) :
    0.0246 < ecms fl E (within fl (excitation fl (fl (E - S)) m) top k r) S := by
  have hE1 := total_le h hn
  obtain ⟨s1, s2⟩ := abs_le.1 hS
  have w := within_next h hm hk h1 hr hr1
  have w0 : 0 ≤ within fl (excitation fl (fl (E - S)) m) top k r :=
    (excitation_nonneg h hm _).trans ((lowerEnd_ge h hm hk).trans (within_ge h hm hk hr))
  have d := abs_le.1 (err256 h (x := E - S) (by rw [abs_le]; constructor <;> linarith))
  have hD := total_le h hm
  unfold ecms
  generalize within fl (excitation fl (fl (E - S)) m) top k r = x at *
  obtain ⟨d1, d2⟩ := d
  norm_num at w d1 d2
  have a := abs_le.1 (err256 h (x := E - x) (by rw [abs_le]; constructor <;> linarith))
  obtain ⟨a1, a2⟩ := a
  norm_num at a1 a2
  have b := abs_le.1 (err256 h (x := fl (E - x) - S) (by rw [abs_le]; constructor <;> linarith))
  obtain ⟨b1, b2⟩ := b
  norm_num at b1 b2 ⊢
  linarith

/-- **The recorded energy of a neutron to the continuum is positive** whenever the program's own test let the channel open: the test
is made at the energy of the bin (stattrans.cpp:44), the recorded energy is computed after the energy was moved within the bin. -/
theorem C131_neutron (h : Double fl) {E S top r : ℝ} {n m k : Nat} (hE : IsDouble E) (h5 : 1 / 5 ≤ E) (hS : |S| ≤ 64)
    (hn : total fl E = some n) (hm : total fl (fl (E - S)) = some m) (hk : k < contBins fl (fl (E - S)) m top)
    (hopen : 0 < ecms fl (excitation fl E n 0) (excitation fl (fl (E - S)) m k) S) (hr : 0 ≤ r) (hr1 : r ≤ 1) :
    0 < ecms fl E (within fl (excitation fl (fl (E - S)) m) top k r) S := by
  rcases Nat.eq_zero_or_pos k with h0 | h0
  · subst h0
    rw [C131_top h hE h5 hn] at hopen
    have w := within_first h hm hk hr1
    have a := h.mono (show E - excitation fl (fl (E - S)) m 0 ≤ E - within fl (excitation fl (fl (E - S)) m) top 0 r by linarith)
    exact lt_of_lt_of_le hopen (h.mono (by linarith))
  · have := C131_neutron_next h hS hn hm (by linarith) hk h0 hr hr1
    norm_num at this
    linarith

/-- A neutron with 5 MeV of separation energy from a state at 8 MeV, with no level above the ground state of the residual: the second
bin is in the continuum, and every random number gives a positive energy. -/
example (h : Double fl) (r : ℝ) (hr : 0 ≤ r) (hr1 : r ≤ 1) : ∃ n m, total fl 8 = some n ∧ total fl (fl (8 - 5)) = some m ∧
    1 < contBins fl (fl (8 - 5)) m 0 ∧ 0 < ecms fl 8 (within fl (excitation fl (fl (8 - 5)) m) 0 1 r) 5 := by
  have d3 : IsDouble 3 := by simpa using isFloat_int (p := 53) (emin := -1074) (n := 3) (by norm_num) (by omega) (by omega)
  have e3 : fl (8 - 5) = 3 := by rw [show (8 - 5 : ℝ) = 3 by norm_num]; exact h.fix d3
  obtain ⟨n, hn⟩ := (C131_mesh h 8).1 (by norm_num)
  obtain ⟨m, hm⟩ := (C131_mesh h (fl (8 - 5))).1 (by rw [e3]; norm_num)
  have hc : 1 < contBins fl (fl (8 - 5)) m 0 := by
    simp only [contBins, if_true]
    by_contra hlt
    unfold total at hm
    cases hs : searchBin fl (fl (8 - 5)) 2500 0 with
    | none => simp [hs] at hm
    | some q =>
      simp [hs] at hm
      have a := (search_spec _ 2500 0 q hs).2.1
      have b := (binEnergy_range h q (by omega)).2
      have hq : (q : ℝ) ≤ 1 := by exact_mod_cast (by omega : q ≤ 1)
      rw [e3] at a
      norm_num at b
      linarith
  refine ⟨n, m, hn, hm, hc, ?_⟩
  have := C131_neutron_next h (by norm_num) hn hm (by norm_num) hc le_rfl hr hr1
  norm_num at this ⊢
  linarith

/-- **The recorded energy of a neutron to a discrete level is the energy of the channel that the test found open**, bit by bit. -/
theorem C131_level (h : Double fl) {E : ℝ} (S lev : ℝ) {n : Nat} (hE : IsDouble E) (h5 : 1 / 5 ≤ E) (hn : total fl E = some n) :
    ecms fl E lev S = ecms fl (excitation fl E n 0) lev S := by rw [C131_top h hE h5 hn]

/-- **The recorded energy of a photon to a bin of the continuum other than the first is above 0.0246 MeV.** -/
theorem C131_photon (h : Double fl) {E top r : ℝ} {n k : Nat} (hn : total fl E = some n) (hk : k < contBins fl E n top) (h1 : 1 ≤ k)
    (hr : 0 ≤ r) (hr1 : r ≤ 1) : 0.0246 < egamma fl E (within fl (excitation fl E n) top k r) := by
  have hE1 := total_le h hn
  have w := within_next h hn hk h1 hr hr1
  have w0 : 0 ≤ within fl (excitation fl E n) top k r :=
    (excitation_nonneg h hn _).trans ((lowerEnd_ge h hn hk).trans (within_ge h hn hk hr))
  unfold egamma
  generalize within fl (excitation fl E n) top k r = x at *
  norm_num at w
  obtain ⟨a1, a2⟩ := abs_le.1 (err256 h (x := E - x) (by rw [abs_le]; constructor <;> linarith))
  norm_num at a1 a2 ⊢
  linarith

/-- **The recorded energy of a photon to a level below the state is positive**, however close the two energies are. -/
theorem C131_photon_level (h : Double fl) {E lev : ℝ} (hE : IsDouble E) (hl : IsDouble lev) (hlt : lev < E) : 0 < egamma fl E lev :=
  h.sub_pos (by omega) hE hl hlt

/-- **The state reached in the continuum is not below the highest level**, and the comparison that is made to that end
(specmc.cpp:358) never changes anything. -/
theorem C131_floor (h : Double fl) {E top r : ℝ} {n k : Nat} (hn : total fl E = some n) (hk : k < contBins fl E n top) (hr : 0 ≤ r) :
    top ≤ within fl (excitation fl E n) top k r ∧
    lowerEnd fl (excitation fl E n) top k = fl (fl (excitation fl E n (k + 1) + excitation fl E n k) * (1 / 2)) :=
  ⟨(contBins_spec h hn hk).2.trans ((lowerEnd_ge h hn hk).trans (within_ge h hn hk hr)), lowerEnd_eq h hn hk⟩

/-- **A neutron emitted to the continuum has a velocity**: the square root is never of a negative number. -/
theorem C131_velocity (h : Double fl) (sin cos : ℝ → ℝ) (hsin : ∀ x, |sin x| ≤ 1) (hcos : ∀ x, |cos x| ≤ 1) (twopi : ℝ) {mn mc : ℝ}
    (hmn : 0 < mn) (hmc : 0 < mc) (p : ℝ × ℝ × ℝ) {r1 r2 : ℝ} (hr2 : IsDouble r2) (h20 : 0 ≤ r2) (h21 : r2 < 1)
    {E S top r : ℝ} {n m k : Nat} (hE : IsDouble E) (h5 : 1 / 5 ≤ E) (hS : |S| ≤ 64)
    (hn : total fl E = some n) (hm : total fl (fl (E - S)) = some m) (hk : k < contBins fl (fl (E - S)) m top)
    (hopen : 0 < ecms fl (excitation fl E n 0) (excitation fl (fl (E - S)) m k) S) (hr : 0 ≤ r) (hr1 : r ≤ 1) :
    ∃ V W, emitVelocity fl sin cos twopi mn mc (ecms fl E (within fl (excitation fl (fl (E - S)) m) top k r) S) p r1 r2 = some (V, W) := by
  have he := C131_neutron h hE h5 hS hn hm hk hopen hr hr1
  obtain ⟨V, W, _, e, _⟩ := C124_emission h sin cos hsin hcos twopi hmn hmc he.le p (r1 := r1) hr2 h20 h21
  exact ⟨V, W, e⟩

/-- **Energy balance of a cascade of any length**: the recorded energies and the separation energies add up to the energy lost, up to
`2^-45` MeV for each emission. -/
theorem C131_balance (h : Double fl) : ∀ (l : List Emission) (E : ℝ), 0 ≤ E → E ≤ 126 →
    (∀ e ∈ l, 0 ≤ e.reached ∧ e.reached ≤ 126 ∧ |e.cost| ≤ 64) →
    |(recorded fl E l).sum + (l.map Emission.cost).sum - (E - lastEnergy E l)| ≤ l.length / 2 ^ 45 := by
  intro l
  induction l with
  | nil => intro E _ _ _; simp [recorded, lastEnergy]
  | cons e l ih =>
    intro E h0 h1 hl
    obtain ⟨x0, x1, c⟩ := hl e (by simp)
    have rest := ih e.reached x0 x1 (fun e' he => hl e' (by simp [he]))
    cases e with
    | photon x =>
      simp only [Emission.reached, Emission.cost, abs_le] at x0 x1 rest
      have a := abs_le.1 (err256 h (x := E - x) (by rw [abs_le]; constructor <;> linarith))
      simp only [recorded, lastEnergy, List.sum_cons, List.map_cons, List.length_cons, Emission.reached, Emission.cost, egamma]
      rw [abs_le]
      push_cast
      norm_num at a rest ⊢
      constructor <;> linarith
    | neutron S x =>
      simp only [Emission.reached, Emission.cost, abs_le] at x0 x1 c rest
      obtain ⟨a1, a2⟩ := abs_le.1 (err256 h (x := E - x) (by rw [abs_le]; constructor <;> linarith))
      norm_num at a1 a2
      have b := abs_le.1 (err256 h (x := fl (E - x) - S) (by rw [abs_le]; constructor <;> linarith))
      simp only [recorded, lastEnergy, List.sum_cons, List.map_cons, List.length_cons, Emission.reached, Emission.cost, ecms]
      rw [abs_le]
      push_cast
      norm_num at b rest ⊢
      constructor <;> linarith

/-- A neutron and a photon from 8 MeV to the ground state. -/
example (h : Double fl) : |(recorded fl 8 [.neutron 5 1, .photon 0]).sum - 3| ≤ 2 / 2 ^ 45 := by
  have := C131_balance h [.neutron 5 1, .photon 0] 8 (by norm_num) (by norm_num)
    (by intro e he; simp at he; rcases he with rfl | rfl <;> simp [Emission.reached, Emission.cost] <;> norm_num)
  simp only [lastEnergy, Emission.reached, Emission.cost, List.map_cons, List.map_nil, List.sum_cons, List.sum_nil, List.length_cons,
    List.length_nil] at this
  norm_num at this ⊢
  rw [show (recorded fl 8 [.neutron 5 1, .photon 0]).sum - 3 = (recorded fl 8 [.neutron 5 1, .photon 0]).sum + 5 - 8 by ring]
  linarith

/-- A photon from 8 MeV to the next bin, and one to a level at 6 MeV. -/
example (h : Double fl) {n : Nat} (hn : total fl 8 = some n) (hk : 1 < contBins fl 8 n 0) :
    0.0246 < egamma fl 8 (within fl (excitation fl 8 n) 0 1 (1 / 2)) ∧ 0 < egamma fl 8 6 :=
  ⟨C131_photon h hn hk le_rfl (by norm_num) (by norm_num), C131_photon_level h
    (by simpa using isFloat_int (p := 53) (emin := -1074) (n := 8) (by norm_num) (by omega) (by omega))
    (by simpa using isFloat_int (p := 53) (emin := -1074) (n := 6) (by norm_num) (by omega) (by omega)) (by norm_num)⟩

end CGMF.Props

import Verif.Proofs.DecayLaw
import Verif.Proofs.Popinit
import Mathlib.Data.Set.Finite.List

/-!
# C113, C114: law of a whole decay

`specmc.cpp:328-421` with the functions it calls.  A decay is a sequence of passes of the continuum loop (C110), then a cascade
through the discrete levels (C86).  The theorems give the joint law of all emitted particles.
-/

namespace CGMF.Props

open MeasureTheory CGMF.Law CGMF.MC CGMF.Grid CGMF.HF CGMF.Branching

section

variable {par : Par ℝ} {m : MCPoint ℝ} {E : ℝ}

/-! ## C113: continuum -/

/-- **C113**, the law of the particles emitted in the continuum.  The probability that the loop ends on a level with `Q` and has
added exactly the particles of the pattern `cs` to the history, in this order, each of the given kind and with an energy in the
given set, is the value of the pattern: the chance of the first particle, averaged over the states of the first pass, times the
chance of the others from the state reached.  Every point the decay can reach must have an open channel. -/
theorem C113_pattern (hp : ∀ n, PhysMeasurable (par.phys n)) (Q : Nat → Nat → Prop)
    (H : ∀ x, Reached par m x → x.disc = false → ∃ n0 n1 m0 m1, Pass par ⟨[], [], fun _ => 0⟩ x n0 n1 m0 m1)
    (cs : List (Pid × Set ℝ)) (hc : ∀ c ∈ cs, MeasurableSet c.2) (fuel : Nat) (st : St ℝ) (hf : cs.length ≤ fuel)
    (hcap : st.hs.length + cs.length < par.cap) (hd : m.disc = false) :
    stream {ω | ∃ k st' x, contLoop par fuel st m (pre ω k) = .ok ((st', x), []) ∧
      (∃ ys, st'.hs = st.hs ++ ys ∧ Matches cs ys) ∧ Q x.n x.k} = patternValue par Q cs m :=
  loop_law hp Q H cs hc fuel st hf hcap hd

/-- **C113**, chains without dead ends: the grid covers the energy, every nucleus has levels and every continuum state an open
photon channel.  Then every point reached has a pass as described by C110, so the other theorems apply. -/
theorem C113_chained (h : Chained par E) (hm : InRange par E m) (x : MCPoint ℝ) (hx : Reached par m x) (hd : x.disc = false) :
    ∃ n0 n1 m0 m1, Pass par ⟨[], [], fun _ => 0⟩ x n0 n1 m0 m1 :=
  chained_pass h (reached_range h hm x hx hd)

/-- **C113**, kinds of particles: the probability that the kinds of the particles emitted in the continuum, in order, form one of
the sequences in `L` is the sum of the values of these sequences. -/
theorem C113_kinds (hp : ∀ n, PhysMeasurable (par.phys n)) (Q : Nat → Nat → Prop) (h : Chained par E) (hm : InRange par E m)
    (fuel : Nat) (st : St ℝ) (hd : m.disc = false) (L : Set (List Pid))
    (hL : ∀ l ∈ L, l.length ≤ fuel ∧ st.hs.length + l.length < par.cap) :
    stream {ω | ∃ k st' x ys, contLoop par fuel st m (pre ω k) = .ok ((st', x), []) ∧ st'.hs = st.hs ++ ys ∧
      ys.map (·.id) ∈ L ∧ Q x.n x.k} = ∑' l : L, patternValue par Q (l.1.map fun p => (p, Set.univ)) m :=
  kinds_law hp Q (C113_chained h hm) fuel st hd L hL

/-- **C113**, neutron multiplicity: the probability that the continuum decay ends normally with `ν` neutrons is the sum of the
values of all sequences of fewer than `MAX_CASCADE` particles with `ν` neutrons. -/
theorem C113_multiplicity (hp : ∀ n, PhysMeasurable (par.phys n)) (h : Chained par E) (hm : InRange par E m)
    (st : St ℝ) (hst : st.hs = []) (hd : m.disc = false) (ν : Nat) :
    stream {ω | ∃ k st' x, contLoop par par.cap st m (pre ω k) = .ok ((st', x), []) ∧ st'.hs.countP (·.id = .neutron) = ν} =
      ∑' l : {l : List Pid | l.length < par.cap ∧ l.count .neutron = ν},
        patternValue par (fun _ _ => True) (l.1.map fun p => (p, Set.univ)) m := by
  rw [← C113_kinds hp (fun _ _ => True) h hm par.cap st hd {l : List Pid | l.length < par.cap ∧ l.count .neutron = ν}
    (fun l hl => ⟨hl.1.le, by rw [hst]; simpa using hl.1⟩)]
  have hcount : ∀ hs : List (Hist ℝ), (hs.map (·.id)).count .neutron = hs.countP (·.id = .neutron) := by
    intro hs
    rw [List.count, List.countP_map]
    rfl
  congr 1
  ext ω
  simp only [Set.mem_ofPred_eq, and_true]
  constructor
  · rintro ⟨k, st', x, h1, h2⟩
    refine ⟨k, st', x, st'.hs, h1, by rw [hst]; rfl, ?_, ?_⟩
    · rw [List.length_map]
      exact loop_room h1
    · rw [hcount, h2]
  · rintro ⟨k, st', x, ys, h1, h2, -, h3⟩
    rw [hst, List.nil_append] at h2
    exact ⟨k, st', x, h1, by rw [h2, ← hcount, h3]⟩

/-! ## C114: whole histories -/

/-- **C114**, the law of a complete history: the probability that the decay emits the particles of the pattern `cs` in the
continuum and then goes through the levels `q` of nucleus `c` down to the ground state is the value of the pattern ending on the
first of these levels times the product of the branching ratios. -/
theorem C114_history (hp : ∀ n, PhysMeasurable (par.phys n)) (h : Chained par E) (hm : InRange par E m) {c : Nat} {n : Nuc ℝ}
    (hn : par.chain[c]? = some n) (hpr : Proper n.levels) (cs : List (Pid × Set ℝ))
    (hc : ∀ c ∈ cs, MeasurableSet c.2) (q : List (Nat × Bool)) (hq : start q < n.levels.length) (hd : m.disc = false) (st : St ℝ)
    (hcap : cs.length + start q < par.cap) (hts : cs.length + start q ≤ st.ts.length)
    (hw : par.window ≤ 0 ∨ ∀ (i : Nat) (l : Level ℝ), n.levels[i]? = some l → l.halflife ≤ 0) :
    stream {ω | ∃ k st', historyLoop par st m (pre ω k) = .ok (st', []) ∧ Records c cs q st'.hs} =
      patternValue par (fun n i => n = c ∧ i = start q) cs m * ENNReal.ofReal (weight n.levels q) :=
  history_law hp hn hpr (C113_chained h hm) cs hc q hq hd st hcap hts hw

/-- **C114**, the decay of a fragment with energy `E`, spin index `j` and the parity of `p0` that starts in the continuum. -/
theorem C114_decay (hp : ∀ n, PhysMeasurable (par.phys n)) (h : Chained par E) {n0 : Nuc ℝ} {m0 : Mesh ℝ}
    (hn0 : par.chain[0]? = some n0) (hm0 : setup par.w par.nbin (elmax n0.levels) E = .ok m0) (hcont : m0.ncont ≠ 0)
    (j p0 : Int) (hj : 0 ≤ j ∧ j < par.maxJ) {c : Nat} {n : Nuc ℝ}
    (hn : par.chain[c]? = some n) (hpr : Proper n.levels) (cs : List (Pid × Set ℝ))
    (hc : ∀ c ∈ cs, MeasurableSet c.2) (q : List (Nat × Bool)) (hq : start q < n.levels.length) (st : St ℝ)
    (hcap : cs.length + start q < par.cap) (hts : cs.length + start q ≤ st.ts.length)
    (hw : par.window ≤ 0 ∨ ∀ (i : Nat) (l : Level ℝ), n.levels[i]? = some l → l.halflife ≤ 0) :
    stream {ω | ∃ k st', decay par st E j p0 (pre ω k) = .ok (st', []) ∧ Records c cs q st'.hs} =
      patternValue par (fun n i => n = c ∧ i = start q) cs ⟨0, if p0 < 0 then -1 else 1, j, 0, E, false⟩ *
        ENNReal.ofReal (weight n.levels q) := by
  have e : ∀ s, decay par st E j p0 s = historyLoop par
      { st with jmax := fun c => if c = 0 then (par.maxJ : Int) - 1 else st.jmax c } ⟨0, if p0 < 0 then -1 else 1, j, 0, E, false⟩ s := by
    intro s
    unfold decay
    rw [hn0, Rnd.bind_of_ok (Rnd.get_ok.mpr ⟨rfl, rfl⟩), Rnd.bind_of_ok (Rnd.lift_ok.mpr ⟨hm0, rfl⟩), if_neg hcont]
    unfold contStart
    rw [fixedStart_one, if_pos hj]
  simp only [e]
  exact C114_history hp h ⟨⟨n0, hn0⟩, by dsimp only; split <;> simp, hj.1, hj.2, le_rfl⟩ hn hpr cs hc q hq rfl
    { st with jmax := fun c => if c = 0 then (par.maxJ : Int) - 1 else st.jmax c } hcap hts hw

end

/-! ## Example -/

namespace PathDemo

/-- A nucleus with two levels and its daughter with one. -/
noncomputable def n0 : Nuc ℝ := ⟨50, 132, [⟨0, 2, 1, 0, []⟩, ⟨1 / 2, 2, 1, 0, [⟨0, 1, 9 / 10⟩]⟩], 2, true, 1⟩
noncomputable def n1 : Nuc ℝ := ⟨50, 131, [⟨0, 1, 1, 0, []⟩], 0, false, 2⟩

noncomputable def par : Par ℝ := ⟨1, 10, 1, 50, 1 / 50, 0, fun r => r, [n0, n1], fun _ _ => LawDemo.ph⟩

theorem mem {x : Nuc ℝ} (h : x ∈ par.chain) : x = n0 ∨ x = n1 := by
  have : x ∈ [n0, n1] := h
  simpa using this

theorem at_chain {n : Nat} {x : Nuc ℝ} (h : par.chain[n]? = some x) : (n = 0 ∧ x = n0) ∨ (n = 1 ∧ x = n1) := by
  have : ([n0, n1] : List (Nuc ℝ))[n]? = some x := h
  rcases n with _ | _ | n
  · cases this; exact .inl ⟨rfl, rfl⟩
  · cases this; exact .inr ⟨rfl, rfl⟩
  · cases this

theorem i0_0 : i0 n0 = 0 := by simp [i0, n0]
theorem i0_1 : i0 n1 = 1 := by simp [i0, n1]

theorem measurable (n : Nat) : PhysMeasurable (par.phys n) := by
  constructor <;> intros <;> exact measurable_const

theorem photon_pos {a b : Nuc ℝ} {ma mb : Mesh ℝ} {p j : Int} (ha : a = n0 ∨ a = n1) (hp : p = 1 ∨ p = -1) (hj : j = 0) :
    0 < photonWidth 1 1 a b ma mb LawDemo.ph p j := by
  subst hj
  unfold photonWidth sumStates
  have hs : ∀ c, 0 ≤ strength 1 1 a b ma mb LawDemo.ph p 0 c := strength_nonneg zero_le_one LawDemo.ph_nonneg
  refine add_pos_of_nonneg_of_pos (List.sum_nonneg fun x hx => ?_) ?_
  · obtain ⟨k, -, rfl⟩ := List.mem_map.mp hx
    refine List.sum_nonneg fun x hx => ?_
    obtain ⟨i, -, rfl⟩ := List.mem_map.mp hx
    exact add_nonneg (hs _) (hs _)
  · rcases ha with rfl | rfl
    · have hl : n0.levels = [⟨0, 2, 1, 0, []⟩, ⟨1 / 2, 2, 1, 0, [⟨0, 1, 9 / 10⟩]⟩] := rfl
      rcases hp with rfl | rfl <;>
        norm_num [strength, photonStrength, i0_0, hl, LawDemo.ph, List.range_succ, PhotonBy, Triangle]
    · have hl : n1.levels = [⟨0, 1, 1, 0, []⟩] := rfl
      rcases hp with rfl | rfl <;>
        norm_num [strength, photonStrength, i0_1, hl, LawDemo.ph, List.range_succ, PhotonBy, Triangle]

theorem chained (E : ℝ) (hE : E ≤ 4) : Chained par E where
  spins := by decide
  width := zero_lt_one
  room := by show 1 < 50; norm_num
  grid := ⟨4, by show 4 < 10; norm_num, by show E < 1 * _; push_cast; linarith⟩
  levels := by
    intro x hx
    rcases mem hx with rfl | rfl
    · exact ⟨by simp [n0], by norm_num [elmax, n0]⟩
    · exact ⟨by simp [n1], by norm_num [elmax, n1]⟩
  other := by
    intro n x hx
    rcases at_chain hx with ⟨rfl, rfl⟩ | ⟨rfl, rfl⟩ <;> decide
  daughter := by
    intro x hx hs
    rcases mem hx with rfl | rfl
    · exact ⟨by norm_num [n0], n1, rfl, by rw [i0_0, i0_1]; norm_num⟩
    · cases hs
  level := by
    intro x hx l hl
    rcases mem hx with rfl | rfl
    · have : l ∈ [(⟨0, 2, 1, 0, []⟩ : Level ℝ), ⟨1 / 2, 2, 1, 0, [⟨0, 1, 9 / 10⟩]⟩] := hl
      rw [i0_0]
      simp only [List.mem_cons, List.not_mem_nil, or_false] at this
      rcases this with rfl | rfl <;> exact ⟨by norm_num, .inl rfl⟩
    · have : l ∈ [(⟨0, 1, 1, 0, []⟩ : Level ℝ)] := hl
      rw [i0_1]
      simp only [List.mem_cons, List.not_mem_nil, or_false] at this
      subst this
      exact ⟨by norm_num, .inl rfl⟩
  phys := fun _ _ => LawDemo.ph_nonneg
  photon := by
    intro n a b ma mb p j e hn hp hj0 hj1 _ _
    have hj : j = 0 := by
      have : j < ((1 : Nat) : Int) := hj1
      omega
    refine photon_pos ?_ hp hj
    rcases at_chain hn with ⟨-, rfl⟩ | ⟨-, rfl⟩
    · exact .inl rfl
    · exact .inr rfl

theorem proper : Proper n0.levels := by
  have key : ∀ (i : Nat) (l : Level ℝ), n0.levels[i]? = some l →
      (i = 0 ∧ l = ⟨0, 2, 1, 0, []⟩) ∨ (i = 1 ∧ l = ⟨1 / 2, 2, 1, 0, [⟨0, 1, 9 / 10⟩]⟩) := by
    intro i l h
    rcases i with _ | _ | i
    · cases h; exact .inl ⟨rfl, rfl⟩
    · cases h; exact .inr ⟨rfl, rfl⟩
    · cases h
  refine ⟨?_, ?_, ?_, ?_⟩
  · intro i l h b hb
    rcases key i l h with ⟨rfl, rfl⟩ | ⟨rfl, rfl⟩ <;> simp at hb
    subst hb; norm_num
  · intro i l h b hb
    rcases key i l h with ⟨rfl, rfl⟩ | ⟨rfl, rfl⟩ <;> simp at hb
    subst hb; norm_num
  · intro i l h b hb
    rcases key i l h with ⟨rfl, rfl⟩ | ⟨rfl, rfl⟩ <;> simp at hb
    subst hb; norm_num
  · intro i l hi h
    rcases key i l h with ⟨rfl, rfl⟩ | ⟨rfl, rfl⟩
    · exact absurd rfl hi
    · simp

noncomputable def m0 : Mesh ℝ := ⟨3, 1, excOf 1 (3 / 2) 3⟩
noncomputable def m1 : Mesh ℝ := ⟨1, 0, excOf 1 (3 / 2 - 2) 1⟩

theorem setup0 : setup par.w par.nbin (elmax n0.levels) (3 / 2) = .ok m0 := by
  norm_num [setup, firstAbove, par, elmax, n0, m0, binEnergy, List.range_succ, List.range'_succ, ncontOf, Res.bind_ok, excOf]

theorem setup1 : setup par.w par.nbin (elmax n1.levels) (3 / 2 - n0.sn) = .ok m1 := by
  norm_num [setup, firstAbove, par, elmax, n0, n1, m1, binEnergy, List.range_succ, ncontOf, Res.bind_ok, excOf]

end PathDemo

/-- From an energy of 3/2 and spin 0 the decay emits one photon to one of the two levels, with equal probability; the second one
is then left by a conversion electron with probability 1/10. -/
example : stream {ω | ∃ k st', decay PathDemo.par ⟨[], List.replicate 100 0, fun _ => 0⟩ (3 / 2) 0 1 (pre ω k) = .ok (st', []) ∧
    Records 0 [(.gamma, Set.univ)] [(1, true)] st'.hs} = ENNReal.ofReal (1 / 20) := by
  rw [C114_decay PathDemo.measurable (PathDemo.chained _ (by norm_num)) (n0 := PathDemo.n0) rfl PathDemo.setup0 (by decide) 0 1
    ⟨le_rfl, by decide⟩ (c := 0) (n := PathDemo.n0) rfl PathDemo.proper _ (by simp) _ (by simp [start, PathDemo.n0]) _
    (by simp [start, PathDemo.par]) (by simp [start]) (.inl le_rfl)]
  have hlev : ∀ φ : MCPoint ℝ → ENNReal, passMean PathDemo.par φ ⟨0, 1, 0, 0, 3 / 2, false⟩ =
      (φ ⟨0, 1, 0, 0, 0, true⟩ + φ ⟨0, 1, 0, 1, 1 / 2, true⟩) / 2 := by
    intro φ
    have hs : sites PathDemo.par ⟨0, 1, 0, 0, 3 / 2, false⟩ = some ((PathDemo.n0, PathDemo.m0), (PathDemo.n1, PathDemo.m1)) := by
      have h1 : PathDemo.par.chain[0]? = some PathDemo.n0 := rfl
      have h2 : PathDemo.par.chain[PathDemo.n0.next]? = some PathDemo.n1 := rfl
      have h3 : PathDemo.n0.status = true := rfl
      simp only [sites, h1, PathDemo.setup0, h3, if_true, h2, PathDemo.setup1]
    have hl0 : PathDemo.n0.levels = [⟨0, 2, 1, 0, []⟩, ⟨1 / 2, 2, 1, 0, [⟨0, 1, 9 / 10⟩]⟩] := rfl
    have hl1 : PathDemo.n1.levels = [⟨0, 1, 1, 0, []⟩] := rfl
    have hc0 : PathDemo.m0.ncont = 1 := rfl
    have hc1 : PathDemo.m1.ncont = 0 := rfl
    have hJ : PathDemo.par.maxJ = 1 := rfl
    have hph : PathDemo.par.phys 0 (3 / 2) = LawDemo.ph := rfl
    have hw : PathDemo.par.w = 1 := rfl
    have hsn : PathDemo.n0.sn = 2 := rfl
    have hex : PathDemo.m0.exc 0 = 3 / 2 := by norm_num [PathDemo.m0, excOf, binEnergy]
    have hg : ∀ i, i < 2 → strength 1 1 PathDemo.n0 PathDemo.n1 PathDemo.m0 PathDemo.m1 LawDemo.ph 1 0 (false, .disc i) = 1 := by
      intro i hi
      interval_cases i <;>
        norm_num [strength, photonStrength, PathDemo.i0_0, hl0, LawDemo.ph, PhotonBy, Triangle]
    have hn : strength 1 1 PathDemo.n0 PathDemo.n1 PathDemo.m0 PathDemo.m1 LawDemo.ph 1 0 (true, .disc 0) = 0 := by
      norm_num [strength, hl1, hsn, hex]
    have e0 : (List.range PathDemo.n0.levels.length) = [0, 1] := rfl
    have e1 : (List.range PathDemo.n1.levels.length) = [0] := rfl
    have v0 : levelValue PathDemo.n0.levels 0 φ 0 = φ ⟨0, 1, 0, 0, 0, true⟩ := rfl
    have v1 : levelValue PathDemo.n0.levels 0 φ 1 = φ ⟨0, 1, 0, 1, 1 / 2, true⟩ := rfl
    simp only [passMean, hs, sumValues, photonWidth, neutronWidth, sumStates, hc0, hc1, hJ, hph, hw, e0, e1, List.map_cons, List.map_nil,
      List.sum_cons, List.sum_nil, hg 0 (by norm_num), hg 1 (by norm_num), hn, stateValue, v0, v1, Nat.sub_self, List.range'_zero]
    norm_num
  have hw : weight PathDemo.n0.levels [(1, true)] = 1 / 10 := by
    have h1 : PathDemo.n0.levels[1]? = some ⟨1 / 2, 2, 1, 0, [⟨0, 1, 9 / 10⟩]⟩ := rfl
    norm_num [weight, h1, Branching.step, start]
  have hm : (if (1 : Int) < 0 then (-1 : Int) else 1) = 1 := by norm_num
  rw [hw, hm, patternValue, if_neg (by simp), hlev]
  simp only [patternValue, Emits, start, Set.mem_univ, and_true, true_and, if_true]
  norm_num
  have h2 : (2 : ENNReal)⁻¹ = ENNReal.ofReal (1 / 2) := by
    rw [one_div, ENNReal.ofReal_inv_of_pos (by norm_num)]
    norm_num
  rw [h2, ← ENNReal.ofReal_mul (by norm_num)]
  norm_num

/-- A neutron of less than one unit, then a photon that ends on the level of the daughter nucleus. -/
example : stream {ω | ∃ k st' x, contLoop PathDemo.par 50 ⟨[], [], fun _ => 0⟩ ⟨0, 1, 0, 0, 4, false⟩ (pre ω k) = .ok ((st', x), []) ∧
      (∃ ys, st'.hs = [] ++ ys ∧ Matches [(.neutron, Set.Iio 1), (.gamma, Set.univ)] ys) ∧ x.n = 1} =
    patternValue PathDemo.par (fun n _ => n = 1) [(.neutron, Set.Iio 1), (.gamma, Set.univ)] ⟨0, 1, 0, 0, 4, false⟩ :=
  C113_pattern (m := ⟨0, 1, 0, 0, 4, false⟩) PathDemo.measurable (fun n _ => n = 1) (C113_chained (PathDemo.chained 4 le_rfl)
    ⟨⟨PathDemo.n0, rfl⟩, .inl rfl, le_rfl, by decide, le_rfl⟩) [(.neutron, Set.Iio 1), (.gamma, Set.univ)]
    (by simp [measurableSet_Iio]) 50 ⟨[], [], fun _ => 0⟩ (by simp) (by simp [PathDemo.par]) rfl

/-- The probability of one neutron at this energy. -/
example : stream {ω | ∃ k st' x, contLoop PathDemo.par 50 ⟨[], [], fun _ => 0⟩ ⟨0, 1, 0, 0, 4, false⟩ (pre ω k) = .ok ((st', x), []) ∧
      st'.hs.countP (·.id = .neutron) = 1} =
    ∑' l : {l : List Pid | l.length < 50 ∧ l.count .neutron = 1},
      patternValue PathDemo.par (fun _ _ => True) (l.1.map fun p => (p, Set.univ)) ⟨0, 1, 0, 0, 4, false⟩ :=
  C113_multiplicity PathDemo.measurable (PathDemo.chained 4 le_rfl) ⟨⟨PathDemo.n0, rfl⟩, .inl rfl, le_rfl, by decide, le_rfl⟩ _ rfl rfl 1

end CGMF.Props

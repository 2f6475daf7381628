import Verif.Proofs.Fragment
import Verif.Props.Demo
import Mathlib.Analysis.SpecialFunctions.Log.Basic

/-!
# C15 - C19, C22, C24: decay histories
-/

namespace CGMF.Props

open CGMF CGMF.Grid CGMF.HF CGMF.MC

variable {K : Type} [Field K] [LinearOrder K] [IsStrictOrderedRing K]

/-! ## C15 -/

/-- **C15.**  The reported neutrons, photons and the conversion electrons are the emissions of the
history sorted by kind, in order, and their numbers add up to the number of decay steps (all entries
but the terminal one). -/
theorem C15_partition (tb : Tables K) (par : Par K) (hcap : 0 < par.cap) (st st' : St K) (stale : Nat → K)
    (z a : Int) (E : K) (jint p0 : Int) (s s' : List K)
    (h : fragment tb par st stale z a E jint p0 s = .ok (st', s')) (nn ng ni : Nat) (r : Rec K)
    (hr : record nn ng ni st' = .ok r) :
    r.n = (st'.hs.dropLast.filter (fun h => h.id = .neutron)).map (·.ep) ∧
    r.g.map Prod.fst = (st'.hs.dropLast.filter (fun h => h.id = .gamma)).map (·.ep) ∧
    r.ic = (st'.hs.dropLast.filter (fun h => h.id = .ic)).map (·.ep) ∧
    r.n.length + r.g.length + r.ic.length + 1 = st'.hs.length := by
  obtain ⟨nmax, chain, -, -, h3⟩ := fragment_ok h
  have hl := (decay_length (par := { par with chain := chain }) hcap h3).1
  obtain ⟨-, r1, r2, r3, -⟩ := record_ok hr
  refine ⟨r1, r2, r3, ?_⟩
  have := energies_length st'.hs.dropLast
  rw [← r1, ← r2, ← r3, List.length_map, List.length_dropLast] at this
  omega

example : ∃ st' s' r, fragment Demo.tb Demo.par Demo.st (fun _ => 0) 50 132 10 1 1 Demo.draws = .ok (st', s') ∧
    record 10 50 50 st' = .ok r ∧ st'.hs.length = 4 := by
  obtain ⟨st', s', h1, h2⟩ := Demo.run_ok
  refine ⟨st', s', _, h1, h2, ?_⟩
  rw [← (C15_partition Demo.tb Demo.par (by decide) _ _ _ _ _ _ _ _ _ _ h1 _ _ _ _ h2).2.2.2]
  rfl

/-! ## C16 -/

/-- **C16**, decays that start in the continuum.  Excitation energy plus fragment mass = energies of all
emitted neutrons, photons and conversion electrons + mass of the residual nucleus + masses of the
neutrons + energy of the final level.  Missing from the full claim: fragments in the discrete region
(`C16_discrete_start`). -/
theorem C16_energy_balance_partial (tb : Tables K) (M : Int → Int → K)
    (hM : ∀ z a v, tb.mx z a = .ok v → v = M z a) (par : Par K) (hw : 0 < par.w)
    (st st' : St K) (stale : Nat → K) (z a : Int) (hel : 0 ≤ elmax (tb.levels z a)) (E : K)
    (hE : StartsInContinuum par.w (elmax (tb.levels z a)) E) (jint p0 : Int) (s s' : List K)
    (h : fragment tb par st stale z a E jint p0 s = .ok (st', s')) (nn ng ni : Nat) (r : Rec K)
    (hr : record nn ng ni st' = .ok r) :
    ∃ l ∈ tb.levels z (a - r.n.length),
      E + M z a = r.n.sum + (r.g.map Prod.fst).sum + r.ic.sum +
        (M z (a - r.n.length) + r.n.length * tb.en) + l.energy := by
  obtain ⟨nmax, hs, f, l, start, h1, h2, h3, h4, h5, h6, -⟩ := fragment_path hM hw hel h
  obtain ⟨-, r1, r2, r3, -⟩ := record_ok hr
  have hd : st'.hs.dropLast = hs := by rw [h3]; simp
  have hn : r.n.length = countN hs := by rw [r1, hd, energies_countN]
  refine ⟨l, by rw [hn]; exact List.mem_of_getElem? h4, ?_⟩
  rw [← h6 hE, h5, energies_sum, hn, r1, r2, r3, hd]
  unfold sepSum
  ring

/-- **C16**, fragments in the discrete region: no neutron is emitted and the balance holds for the
energy of the level the decay starts from, whatever the sampled excitation energy. -/
theorem C16_discrete_start (tb : Tables K) (M : Int → Int → K)
    (hM : ∀ z a v, tb.mx z a = .ok v → v = M z a) (par : Par K) (hw : 0 < par.w)
    (st st' : St K) (stale : Nat → K) (z a : Int) (hel : 0 ≤ elmax (tb.levels z a)) (E : K)
    (hE : ¬ StartsInContinuum par.w (elmax (tb.levels z a)) E) (jint p0 : Int) (s s' : List K)
    (h : fragment tb par st stale z a E jint p0 s = .ok (st', s')) (nn ng ni : Nat) (r : Rec K)
    (hr : record nn ng ni st' = .ok r) :
    r.n = [] ∧ ∃ l0 ∈ tb.levels z a, ∃ l ∈ tb.levels z a,
      l0.energy = (r.g.map Prod.fst).sum + r.ic.sum + l.energy := by
  obtain ⟨nmax, hs, f, l, start, h1, h2, h3, h4, h5, -, h6⟩ := fragment_path hM hw hel h
  obtain ⟨-, r1, r2, r3, -⟩ := record_ok hr
  have hd : st'.hs.dropLast = hs := by rw [h3]; simp
  obtain ⟨h7, l0, h8, h9⟩ := h6 hE
  have hn : r.n = [] := by
    have : r.n.length = 0 := by rw [r1, hd, energies_countN, h7]
    exact List.length_eq_zero_iff.mp this
  refine ⟨hn, l0, h8, l, ?_, ?_⟩
  · rw [h7] at h4
    have : a - ((0 : Nat) : Int) = a := by simp
    rw [this] at h4
    exact List.mem_of_getElem? h4
  · rw [← h9, h5, energies_sum, r2, r3, hd, h7, ← hd, ← r1, hn]
    unfold sepSum
    simp

/-- A nucleus of mass 132 with 1 MeV starts at its discrete level: one conversion electron of 1 MeV, no neutron. -/
example : ¬ StartsInContinuum Demo.par.w (elmax (Demo.tb.levels 50 132)) 1 ∧
    Demo.recOf (fragment Demo.tb Demo.par Demo.st (fun _ => 0) 50 132 1 1 1 Demo.draws) =
      some (.ok ⟨[], [], [1]⟩) := by
  constructor
  · simp only [StartsInContinuum]; decide +kernel
  · decide +kernel

/-- **C16** refuted in the discrete region: a fragment of 1.2 MeV whose only excited level is at 1 MeV
emits 1 MeV and ends in the ground state. -/
theorem C16_refuted : ∃ st' s', fragment Demo.tb Demo.par Demo.st (fun _ => 0) 50 132 (6 / 5) 0 1
      [1 / 2, 1 / 2, 1 / 2] = .ok (st', s') ∧
    record 10 50 50 st' = .ok ⟨[], [(1, 1)], []⟩ ∧ st'.hs.getLast?.map (·.mp.e) = some 0 := by
  have h : (match fragment Demo.tb Demo.par Demo.st (fun _ => 0) 50 132 (6 / 5) 0 1 [1 / 2, 1 / 2, 1 / 2] with
    | .ok x => decide (record 10 50 50 x.1 = .ok ⟨[], [(1, 1)], []⟩ ∧ x.1.hs.getLast?.map (·.mp.e) = some 0)
    | _ => false) = true := by decide +kernel
  split at h
  · rename_i x hx
    exact ⟨x.1, x.2, hx, by simpa using h⟩
  · cases h

example : ∃ st' s' r, fragment Demo.tb Demo.par Demo.st (fun _ => 0) 50 132 10 1 1 Demo.draws = .ok (st', s') ∧
    record 10 50 50 st' = .ok r ∧ ∃ l ∈ Demo.levels 131,
      (10 : ℚ) + 0 = r.n.sum + (r.g.map Prod.fst).sum + r.ic.sum + (-2 + 1 * 8) + l.energy := by
  obtain ⟨st', s', h1, h2⟩ := Demo.run_ok
  refine ⟨st', s', _, h1, h2, ?_⟩
  obtain ⟨l, hl, he⟩ := C16_energy_balance_partial Demo.tb (fun _ a => (a - 132) * 2)
    (by intro z a v h; simp only [Demo.tb] at h; split at h <;> cases h; rfl) Demo.par (by decide +kernel)
    _ _ _ _ _ (by decide +kernel) 10 (by right; decide +kernel) _ _ _ _ h1 _ _ _ _ h2
  refine ⟨l, hl, ?_⟩
  norm_num [Demo.tb] at he ⊢
  linarith

/-! ## C17 -/

/-- **C17.**  With random numbers in `[0, 1]` and level schemes that are sorted and branch downwards, no
emitted particle has a negative energy. -/
theorem C17_nonnegative (tb : Tables K) (M : Int → Int → K)
    (hM : ∀ z a v, tb.mx z a = .ok v → v = M z a) (par : Par K) (hw : 0 < par.w)
    (st st' : St K) (stale : Nat → K) (z a : Int) (hl : ∀ k : Nat, LevelsOK (tb.levels z (a - k))) (E : K)
    (jint p0 : Int) (s s' : List K) (hs : ∀ r ∈ s, 0 ≤ r ∧ r ≤ 1)
    (h : fragment tb par st stale z a E jint p0 s = .ok (st', s')) (nn ng ni : Nat) (r : Rec K)
    (hr : record nn ng ni st' = .ok r) :
    (∀ e ∈ r.n, 0 ≤ e) ∧ (∀ g ∈ r.g, 0 ≤ g.1) ∧ (∀ e ∈ r.ic, 0 ≤ e) := by
  obtain ⟨nmax, chain, h1, h2, h3⟩ := fragment_ok h
  obtain ⟨-, -, hc⟩ := initSystem_ok hM h2
  have hlv : ChainLevels chain := by
    intro n hn
    obtain ⟨i, hi⟩ := List.mem_iff_getElem?.mp hn
    rw [(hc i n hi).2.2.1]
    exact hl i
  have he := decay_energy (par := { par with chain := chain }) hw (initSystem_next hM h2) hlv hs h3
  obtain ⟨-, r1, r2, r3, -⟩ := record_ok hr
  have key : ∀ id, ∀ e ∈ energies id st'.hs.dropLast, 0 ≤ e := by
    intro id e hm
    obtain ⟨x, hx, rfl⟩ := List.mem_map.mp hm
    exact he x (List.dropLast_subset _ (List.mem_of_mem_filter hx))
  refine ⟨fun e hm => key .neutron e (r1 ▸ hm), ?_, fun e hm => key .ic e (r3 ▸ hm)⟩
  intro g hg
  exact key .gamma g.1 (r2 ▸ List.mem_map.mpr ⟨g, hg, rfl⟩)

theorem Demo_levels (a : Int) : LevelsOK (Demo.levels a) := by
  unfold Demo.levels
  split
  all_goals
    refine ⟨by simp, ?_, ?_, ?_⟩
    · intro l hl
      simp only [List.mem_cons, List.not_mem_nil, or_false] at hl
      rcases hl with rfl | rfl <;> norm_num
    · intro i j a b hij ha hb
      rcases i with _ | _ | i <;> rcases j with _ | _ | j <;> simp at ha hb <;> subst ha <;> subst hb <;>
        first | omega | norm_num
    · intro i l hl b hb
      rcases i with _ | _ | i <;> simp at hl <;> subst hl <;> simp at hb
      subst hb; simp

example : (∀ k : Nat, LevelsOK (Demo.tb.levels 50 (132 - k))) ∧ ∀ r ∈ Demo.draws, 0 ≤ r ∧ r ≤ 1 :=
  ⟨fun _ => Demo_levels _, by decide +kernel⟩

/-! ## C18 -/

/-- **C18.**  A finished history has at most `MAX_CASCADE` entries, the terminal one included. -/
theorem C18_capacity (tb : Tables K) (par : Par K) (hcap : 0 < par.cap) (st st' : St K) (stale : Nat → K)
    (z a : Int) (E : K) (jint p0 : Int) (s s' : List K)
    (h : fragment tb par st stale z a E jint p0 s = .ok (st', s')) :
    0 < st'.hs.length ∧ st'.hs.length ≤ par.cap := by
  obtain ⟨nmax, chain, -, -, h3⟩ := fragment_ok h
  exact decay_length (par := { par with chain := chain }) hcap h3

/-- **C18.**  The decay ends: if every excited level has branches to lower levels that sum to at least
one, and random numbers are at most one, a bounded number of random numbers is enough for the decay to
finish or stop. -/
theorem C18_terminates (tb : Tables K) (M : Int → Int → K)
    (hM : ∀ z a v, tb.mx z a = .ok v → v = M z a) (par : Par K) (hcap : 0 < par.cap) (st : St K)
    (stale : Nat → K) (z a : Int) (L : Nat) (hL : ∀ k : Nat, (tb.levels z (a - k)).length ≤ L)
    (hd : ∀ k : Nat, Decays (tb.levels z (a - k))) (E : K) (jint p0 : Int) (s : List K)
    (hr : ∀ r ∈ s, r ≤ 1) (hs : par.cap * (3 * L + 2) + 3 * L ≤ s.length) :
    fragment tb par st stale z a E jint p0 s ≠ .more := by
  unfold fragment
  rw [Rnd.bind_run]
  cases ht : totalNeutrons tb z a E with
  | exit => simp [Rnd.lift]
  | ub => simp [Rnd.lift]
  | ok n =>
    simp only [Rnd.lift]
    rw [Rnd.bind_run]
    cases hi : initSystem tb stale z a n E with
    | exit => simp [Rnd.lift]
    | ub => simp [Rnd.lift]
    | ok chain =>
      simp only [Rnd.lift]
      obtain ⟨-, -, hc⟩ := initSystem_ok hM hi
      have hlev : ∀ x ∈ chain, ∃ k : Nat, x.levels = tb.levels z (a - k) := by
        intro x hx
        obtain ⟨i, hi'⟩ := List.mem_iff_getElem?.mp hx
        exact ⟨i, (hc i x hi').2.2.1⟩
      refine decay_needs (par := { par with chain := chain }) (L := L) hcap ?_ ?_ st E jint p0 s hr hs
      · intro x hx
        obtain ⟨k, hk⟩ := hlev x hx
        rw [hk]; exact hL k
      · intro x hx
        obtain ⟨k, hk⟩ := hlev x hx
        rw [hk]; exact hd k

/-- Level data of a nucleus that the code can handle: a ground state whose spin is known or marked
unknown and below 50, and branches to existing levels. -/
structure LevelsUsable (levels : List (Level K)) : Prop where
  ground : ∃ l, levels.head? = some l ∧ -2 ≤ l.spin2 ∧ l.spin2 ≤ 100
  branch : ∀ l ∈ levels, ∀ b ∈ l.branches, b.fstate < levels.length

/-- **C18.**  With an array of time stamps at least as long as the history, the decay never leaves any
array: it finishes, stops the process, or (short of random numbers) goes on. -/
theorem C18_memory_safe (tb : Tables K) (M : Int → Int → K)
    (hM : ∀ z a v, tb.mx z a = .ok v → v = M z a) (hmx : ∀ z a, tb.mx z a ≠ .ub) (hc : 0 < tb.maxc)
    (par : Par K) (hcap : 0 < par.cap) (hJ : 0 < par.maxJ) (hJ50 : par.maxJ ≤ 50) (st : St K)
    (hts : par.cap ≤ st.ts.length) (hj : ∀ c, st.jmax c ≤ (par.maxJ : Int) - 1)
    (stale : Nat → K) (z a : Int) (hl : ∀ k : Nat, LevelsUsable (tb.levels z (a - k)))
    (E : K) (jint p0 : Int) (s : List K) :
    fragment tb par st stale z a E jint p0 s ≠ .ub := by
  unfold fragment
  rw [Rnd.bind_run]
  cases ht : totalNeutrons tb z a E with
  | exit => simp [Rnd.lift]
  | ub =>
    exfalso
    unfold totalNeutrons at ht
    have hco : ∀ (f : Nat) (a : Int) (e : K), countOpen tb z f a e ≠ .ub := by
      intro f
      induction f with
      | zero => intro a e; simp [countOpen]
      | succ f ih =>
        intro a e
        rw [countOpen]
        cases h1 : tb.mx z (a - 1) with
        | ub => exact absurd h1 (hmx _ _)
        | exit => simp
        | ok m1 =>
          cases h0 : tb.mx z a with
          | ub => exact absurd h0 (hmx _ _)
          | exit => simp
          | ok m0 =>
            simp only [Res.bind_ok]
            split
            · simp
            · cases h2 : countOpen tb z f (a - 1) (e - (m1 + tb.en - m0)) with
              | ub => exact absurd h2 (ih _ _)
              | exit => simp
              | ok n => simp
    cases h2 : countOpen tb z 10 a E with
    | ub => exact hco _ _ _ h2
    | exit => rw [h2] at ht; simp at ht
    | ok n => rw [h2] at ht; simp at ht
  | ok n =>
    simp only [Rnd.lift]
    rw [Rnd.bind_run]
    obtain ⟨chain, hi⟩ := initSystem_total (stale := stale) hM hc ht
    rw [hi]
    simp only [Rnd.lift]
    obtain ⟨hlen, -, hcc⟩ := initSystem_ok hM hi
    have hlev : ∀ x ∈ chain, LevelsUsable x.levels := by
      intro x hx
      obtain ⟨i, hi'⟩ := List.mem_iff_getElem?.mp hx
      rw [(hcc i x hi').2.2.1]
      exact hl i
    refine (decay_safe (par := { par with chain := chain }) ?_ ?_ hts (fun c _ => hj c) E jint p0 s).1
    · refine ⟨hJ, hJ50, hcap, fun x hx => (hlev x hx).ground, ?_, fun x hx => (hlev x hx).branch⟩
      intro x hx hst
      obtain ⟨i, hi'⟩ := List.mem_iff_getElem?.mp hx
      obtain ⟨-, -, -, q1, q2, -⟩ := hcc i x hi'
      have := q2 hst
      show x.next < chain.length
      omega
    · intro h0
      have : chain.length = 0 := by
        have : chain = [] := h0
        rw [this]; rfl
      omega

/-- **C18**, for the array of time stamps as it is (50 entries, shorter than the history): a decay that
would finish with a longer array, with at most that many emissions, finishes with the same history. -/
theorem C18_short_array (tb : Tables K) (par : Par K) (st st' : St K) (pad : List K) (stale : Nat → K)
    (z a : Int) (E : K) (jint p0 : Int) (s s' : List K)
    (h : fragment tb par { st with ts := st.ts ++ pad } stale z a E jint p0 s = .ok (st', s'))
    (hl : st'.hs.length ≤ st.ts.length + 1) :
    ∃ st'', fragment tb par st stale z a E jint p0 s = .ok (st'', s') ∧ st''.hs = st'.hs := by
  obtain ⟨nmax, chain, h1, h2, h3⟩ := fragment_ok h
  obtain ⟨st'', h4, h5⟩ := decay_pad h3 hl
  refine ⟨st'', ?_, h5⟩
  unfold fragment
  rw [Rnd.bind_of_ok (Rnd.lift_ok.mpr ⟨h1, rfl⟩), Rnd.bind_of_ok (Rnd.lift_ok.mpr ⟨h2, rfl⟩)]
  exact h4

/-- **C18**, the proviso is needed: from an excited level without branches the discrete cascade never
ends when no coincidence window is set, whatever the random numbers. -/
theorem C18_dead_end (par : Par K) (c i : Nat) (n : Nuc K) (l : Level K) (hn : par.chain[c]? = some n)
    (hi : i ≠ 0) (hl : n.levels[i]? = some l) (hb : l.branches = []) (hw : par.window ≤ 0) (st : St K)
    (s : List K) : cascade par c i st s = .more := by
  unfold cascade
  rw [hn]
  exact cascadeLoop_dead_end hi hl hb (not_lt.mpr hw) _ _ _ _

/-- The bound on the number of passes in the model is not a restriction: with more passes than the
history can hold, or than there are random numbers, the result is the same. -/
theorem C18_fuel (par : Par K) (st : St K) (m : MCPoint K) (s : List K) (f : Nat) (hl : st.hs.length < par.cap)
    (hf : par.cap ≤ f) : contLoop par f st m s = contLoop par par.cap st m s :=
  contLoop_fuel f par.cap st m s hl (by omega) (by omega)

example : (∀ k : Nat, (Demo.tb.levels 50 (132 - k)).length ≤ 2) ∧ (∀ k : Nat, Decays (Demo.tb.levels 50 (132 - k))) ∧
    ∀ k : Nat, LevelsUsable (Demo.tb.levels 50 (132 - k)) := by
  have hh : ∀ a, Decays (Demo.levels a) := by
    intro a i l hi hl
    unfold Demo.levels at hl
    split at hl <;> rcases i with _ | _ | i <;> simp at hi hl <;> subst hl <;> simp
  have hu : ∀ a, LevelsUsable (Demo.levels a) := by
    intro a
    unfold Demo.levels
    split
    all_goals
      refine ⟨⟨_, rfl, by norm_num, by norm_num⟩, ?_⟩
      intro l hl b hb
      simp only [List.mem_cons, List.not_mem_nil, or_false] at hl
      rcases hl with rfl | rfl <;> simp at hb
      subst hb; simp
  refine ⟨fun k => ?_, fun k => hh _, fun k => hu _⟩
  show (Demo.levels _).length ≤ 2
  unfold Demo.levels
  split <;> simp

/-! ## C19 -/

/-- **C19.**  With random numbers in `(0, 1]` and a non-negative delay function: there is an age for every
emission such that the reported photons carry the ages of their emissions, ages never decrease along
the history, are non-negative, zero for emissions from the continuum, and with a positive coincidence
window at most the window. -/
theorem C19_ages (tb : Tables K) (par : Par K) (hd : ∀ r, 0 < r → r ≤ 1 → 0 ≤ par.delay r)
    (st st' : St K) (stale : Nat → K) (z a : Int) (E : K) (jint p0 : Int) (s s' : List K)
    (hs : ∀ r ∈ s, 0 < r ∧ r ≤ 1)
    (h : fragment tb par st stale z a E jint p0 s = .ok (st', s')) (nn ng ni : Nat) (r : Rec K)
    (hr : record nn ng ni st' = .ok r) :
    ∃ ages : List K, ages.length = st'.hs.length - 1 ∧
      r.g = ((st'.hs.dropLast.zip ages).filter (fun p => p.1.id = .gamma)).map (fun p => (p.1.ep, p.2)) ∧
      ages.Pairwise (· ≤ ·) ∧ (∀ t ∈ ages, 0 ≤ t ∧ (0 < par.window → t ≤ par.window)) ∧
      (∀ (i : Nat) (e : Hist K) (t : K), st'.hs.dropLast[i]? = some e → ages[i]? = some t →
        e.mp.disc = false → t = 0) ∧
      (r.g.map Prod.snd).Pairwise (· ≤ ·) ∧
      ∀ g ∈ r.g, 0 ≤ g.2 ∧ (0 < par.window → g.2 ≤ par.window) := by
  obtain ⟨nmax, chain, -, -, h3⟩ := fragment_ok h
  obtain ⟨t, st1, mk, ⟨ht0, htw, ages, ha1, ha2, ha3, ha4⟩, rfl⟩ :=
    decay_aged (par := { par with chain := chain }) hd hs h3
  have hdl : (st1.hs ++ [mk]).dropLast = st1.hs := by simp
  obtain ⟨hrec, -⟩ := record_ok hr
  have hg := recordLoop_times (ages := ages) hrec (by simpa using ha1) (by
    intro k e x hk hx
    rw [Nat.zero_add]
    simp only [hdl] at hk
    exact (ha2 k e x hk hx).1)
  simp only [hdl, List.nil_append] at hg
  have hbound : ∀ t' ∈ ages, 0 ≤ t' ∧ (0 < par.window → t' ≤ par.window) :=
    fun t' h' => ⟨(ha4 t' h').1, fun hw => (ha4 t' h').2.trans (htw hw)⟩
  refine ⟨ages, by simpa using ha1, by simpa [hdl] using hg, ha3, hbound, ?_, ?_, ?_⟩
  · intro i e x he hx
    simp only [hdl] at he
    exact (ha2 i e x he hx).2
  · rw [hg, List.map_map]
    have hsub : (((st1.hs.zip ages).filter (fun p => p.1.id = .gamma)).map Prod.snd).Sublist ages := by
      have h1 : ((st1.hs.zip ages).filter (fun p => p.1.id = .gamma)).Sublist (st1.hs.zip ages) :=
        List.filter_sublist
      have h2 := h1.map Prod.snd
      have h3 : (st1.hs.zip ages).map Prod.snd = ages := List.map_snd_zip (by omega)
      rw [h3] at h2
      exact h2
    exact ha3.sublist hsub
  · intro g hgm
    rw [hg] at hgm
    obtain ⟨p, hp, rfl⟩ := List.mem_map.mp hgm
    exact hbound _ (List.of_mem_zip (List.mem_of_mem_filter hp)).2

/-- The code's delay function `-log(r)/log(2)` is non-negative on `(0, 1]`. -/
theorem C19_delay (r : ℝ) (h0 : 0 < r) (h1 : r ≤ 1) : 0 ≤ -Real.log r / Real.log 2 := by
  apply div_nonneg
  · have := Real.log_nonpos h0.le h1
    linarith
  · exact Real.log_nonneg (by norm_num)

example : (∀ r ∈ Demo.draws, 0 < r ∧ r ≤ 1) ∧ ∀ r : ℚ, 0 < r → r ≤ 1 → 0 ≤ Demo.par.delay r := by
  refine ⟨by decide +kernel, ?_⟩
  intro r _ h
  show 0 ≤ 1 - r
  linarith

/-! ## C22 -/

/-- **C22.**  Each step of the discrete cascade follows a tabulated branch of the current level and carries
the difference of the level energies; the cascade ends in the ground state or, with a positive window,
in a level with a finite half-life. -/
theorem C22_cascade_walk (par : Par K) (c i f : Nat) (st st' : St K) (s s' : List K)
    (h : cascade par c i st s = .ok ((f, st'), s')) :
    ∃ n new, par.chain[c]? = some n ∧ st'.hs = st.hs ++ new ∧ Walk n.levels c i new f ∧
      (f = 0 ∨ (0 < par.window ∧ ∃ l, n.levels[f]? = some l ∧ 0 < l.halflife)) := cascade_walk h

example : (match cascade { Demo.par with chain := [⟨50, 132, Demo.levels 132, 6, false, 1⟩] } 0 1 Demo.st
    [1 / 2, 1 / 2, 1 / 2] with
    | .ok x => decide (x.1.1 = 0 ∧ x.1.2.hs.map (·.ep) = [1])
    | _ => false) = true := by decide +kernel

/-! ## C24 -/

/-- **C24**, neutrons: the slots for neutrons are never exceeded when there are at least
`MAX_COMPOUND - 1` of them. -/
theorem C24_neutrons_fit (tb : Tables K) (M : Int → Int → K)
    (hM : ∀ z a v, tb.mx z a = .ok v → v = M z a) (hc : 0 < tb.maxc) (par : Par K) (hw : 0 < par.w)
    (st st' : St K) (stale : Nat → K) (z a : Int) (hel : 0 ≤ elmax (tb.levels z a)) (E : K)
    (jint p0 : Int) (s s' : List K)
    (h : fragment tb par st stale z a E jint p0 s = .ok (st', s')) :
    (st'.hs.dropLast.filter (fun h => h.id = .neutron)).length ≤ tb.maxc - 1 := by
  obtain ⟨nmax, hs, f, l, start, h1, h2, h3, -⟩ := fragment_path hM hw hel h
  obtain ⟨h4, -⟩ := totalNeutrons_ok hM hc h1
  have hd : st'.hs.dropLast = hs := by rw [h3]; simp
  rw [hd]
  have : (hs.filter (fun h => h.id = .neutron)).length = countN hs := rfl
  omega

/-- **C24**, exactly when storage is exceeded.  The record of a finished decay is complete if the numbers
of neutrons, photons and conversion electrons fit the slots; otherwise a slot outside the arrays is
written.  The multiplicity check that follows never stops the process. -/
theorem C24_storage_iff (tb : Tables K) (par : Par K) (hd : ∀ r, 0 < r → r ≤ 1 → 0 ≤ par.delay r)
    (st st' : St K) (stale : Nat → K) (z a : Int) (E : K) (jint p0 : Int) (s s' : List K)
    (hs : ∀ r ∈ s, 0 < r ∧ r ≤ 1)
    (h : fragment tb par st stale z a E jint p0 s = .ok (st', s')) (nn ng ni : Nat) :
    record nn ng ni st' ≠ .exit ∧
    (record nn ng ni st' = .ub ↔
      nn < (energies .neutron st'.hs.dropLast).length ∨ ng < (energies .gamma st'.hs.dropLast).length ∨
      ni < (energies .ic st'.hs.dropLast).length) := by
  obtain ⟨nmax, chain, -, -, h3⟩ := fragment_ok h
  obtain ⟨t, st1, mk, ⟨ht0, htw, ages, ha1, ha2, ha3, ha4⟩, rfl⟩ :=
    decay_aged (par := { par with chain := chain }) hd hs h3
  have hdl : (st1.hs ++ [mk]).dropLast = st1.hs := by simp
  unfold record
  simp only [hdl]
  cases hrl : recordLoop nn ng ni st1.ts 0 st1.hs ⟨[], [], []⟩ with
  | exit => exact absurd hrl recordLoop_not_exit
  | ok r =>
    obtain ⟨a1, a2, a3, a4, a5, a6⟩ := recordLoop_ok hrl
    simp only [List.nil_append, List.map_nil] at a1 a2 a3
    have b4 := a4 (Nat.zero_le _)
    have b5 := a5 (Nat.zero_le _)
    have b6 := a6 (Nat.zero_le _)
    have c2 : r.g.length = (energies .gamma st1.hs).length := by rw [← a2, List.length_map]
    rw [Res.bind_ok, if_neg (by omega)]
    refine ⟨by simp, ?_⟩
    simp only [Res.pure_eq, reduceCtorEq, false_iff]
    rw [← a1, ← a3, ← c2]
    omega
  | ub =>
    refine ⟨by simp, ?_⟩
    simp only [Res.bind_ub, true_iff]
    by_contra hc
    simp only [not_or, not_lt] at hc
    obtain ⟨c1, c2, c3⟩ := hc
    obtain ⟨r', hr'⟩ := recordLoop_total (nn := nn) (ng := ng) (ni := ni) (ts := st1.ts) (hs := st1.hs) (i := 0)
      (r := ⟨[], [], []⟩) (by
        intro k e hk
        have hlt : k < ages.length := by
          rw [ha1]; exact (List.getElem?_eq_some_iff.mp hk).1
        refine ⟨ages[k], ?_⟩
        rw [Nat.zero_add]
        exact (ha2 k e ages[k] hk (by simp [hlt])).1)
      (by simpa using c1) (by simpa using c2) (by simpa using c3)
    rw [hrl] at hr'
    cases hr'

/-- A level scheme that is a ladder: each level decays to the one below. -/
def ladder (N : Nat) : List (Level K) :=
  (List.range (N + 1)).map fun i : Nat => ⟨i, 0, 1, 0, if i = 0 then [] else [⟨i - 1, 1, 1⟩]⟩

/-- **C24** refuted: a cascade down a ladder of more steps than the array of time stamps has entries
writes outside the array, for every array size below the history capacity less one. -/
theorem C24_time_stamps_overrun (par : Par K) (c N : Nat) (n : Nuc K) (hn : par.chain[c]? = some n)
    (hl : n.levels = ladder N) (hw : par.window ≤ 0) (st : St K) (hs0 : st.hs = []) (hT : st.ts.length < N)
    (hcap : st.ts.length + 1 < par.cap) (s : List K) (hs : 2 * N ≤ s.length) (hr : ∀ r ∈ s, r ≤ 1) :
    cascade par c N st s = .ub := by
  unfold cascade
  rw [hn]
  refine ladder_ub hn (not_lt.mpr hw) N (s.length + 1) 0 st s ?_ ?_ ?_ ?_ hcap hs (by omega) hr
  · rw [hl]; simp [ladder]
  · intro k hk hkN
    refine ⟨⟨k, 0, 1, 0, [⟨k - 1, 1, 1⟩]⟩, ?_, rfl, rfl⟩
    rw [hl]
    unfold ladder
    rw [List.getElem?_map, List.getElem?_range (by omega)]
    simp only [Option.map_some]
    rw [if_neg (by omega)]
  · rw [hs0]; simp
  · rw [hs0]; simpa using hT

/-- The code's sizes: 50 time stamps, histories of 100 entries, a ladder of 51 steps. -/
example : cascade ({ Demo.par with window := 0, chain := [⟨50, 132, ladder 51, 6, false, 1⟩] }) 0 51 Demo.st
    (List.replicate 102 (1 / 2)) = .ub := by
  refine C24_time_stamps_overrun _ 0 51 _ rfl rfl (by norm_num) _ rfl (by simp [Demo.st]) (by simp [Demo.st, Demo.par]) _
    (by simp) ?_
  intro r hr
  rw [List.eq_of_mem_replicate hr]; norm_num

end CGMF.Props

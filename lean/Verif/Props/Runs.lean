import Verif.Proofs.Runs

/-!
# C117: law of the decays of an event

`specmc.cpp:113-197` called for one fragment after the other.
-/

namespace CGMF.Props

open MeasureTheory CGMF.Law CGMF.MC CGMF.Grid CGMF.HF CGMF.Branching

/-- **C117.** Any number of fragments decay one after the other in one program, with one stream of random numbers and with the arrays
as the previous decays left them.  The probability that each of them emits the particles asked for is the product of the
probabilities of the single decays: the decays are independent. -/
theorem C117_events (nn ng ni : Nat) (l : List (Job ℝ × (Nat → ℝ))) (ps : List (List (Nuc ℝ) × Want)) (st : St ℝ)
    (h : List.Forall₂ (fun b p => JobReady st.ts.length b.1 p.1 p.2) l ps) :
    stream {ω | ∃ k r, oneProgram nn ng ni l st (pre ω k) = .ok (r, []) ∧ Shows (ps.map Prod.snd) r} =
      (List.zipWith (fun b p => jobChance b.1 p.1 p.2) l ps).prod := by
  obtain ⟨S, -, v, e⟩ := run_event nn ng ni st.ts.length l ps h
  rw [← v]
  apply stream_congr
  intro ω hω
  simp only [Set.mem_iUnion]
  exact exists_congr fun k => e ω hω st rfl k

/-- **C117**, two fragments: what the first one emits tells nothing about the second one. -/
theorem C117_pair (nn ng ni : Nat) (b b' : Job ℝ) (e e' : Nat → ℝ) (chain chain' : List (Nuc ℝ)) (w w' : Want) (st : St ℝ)
    (h : JobReady st.ts.length b chain w) (h' : JobReady st.ts.length b' chain' w') :
    stream {ω | ∃ k x y, oneProgram nn ng ni [(b, e), (b', e')] st (pre ω k) = .ok ([x, y], []) ∧ Records w.c w.cs w.q x.1 ∧
        Records w'.c w'.cs w'.q y.1} =
      stream {ω | ∃ k x, b.run st e (pre ω k) = .ok (x, []) ∧ Records w.c w.cs w.q x.hs} *
        stream {ω | ∃ k x, b'.run st e' (pre ω k) = .ok (x, []) ∧ Records w'.c w'.cs w'.q x.hs} := by
  have h1 : ∀ (b : Job ℝ) (e : Nat → ℝ) chain w, JobReady st.ts.length b chain w →
      stream {ω | ∃ k x, b.run st e (pre ω k) = .ok (x, []) ∧ Records w.c w.cs w.q x.hs} = jobChance b chain w := by
    intro b e chain w hb
    obtain ⟨S, -, v, ev⟩ := decay_event hb.2 b.p
    rw [jobChance, ← v]
    apply stream_congr
    intro ω hω
    simp only [Set.mem_iUnion]
    refine exists_congr fun k => ?_
    simp only [run_eq hb.1]
    exact ev ω hω st rfl k
  rw [h1 b e chain w h, h1 b' e' chain' w' h']
  have := C117_events nn ng ni [(b, e), (b', e')] [(chain, w), (chain', w')] st (.cons h (.cons h' .nil))
  simp only [List.zipWith_cons_cons, List.zipWith_nil_left, List.prod_cons, List.prod_nil, mul_one, List.map_cons, List.map_nil] at this
  rw [← this]
  congr 1
  ext ω
  constructor
  · rintro ⟨k, x, y, g1, g2, g3⟩
    exact ⟨k, _, g1, .cons g2 (.cons g3 .nil)⟩
  · rintro ⟨k, r, g1, g2⟩
    cases g2 with
    | cons g2 g3 =>
      cases g3 with
      | cons g3 g4 =>
        cases g4
        exact ⟨k, _, _, g1, g2, g3⟩

/-! ## Example -/

namespace RunsDemo

/-- Tin-132 with its two levels and tin-131 with one; neutrons cost two units. -/
noncomputable def tb : Tables ℝ where
  mx _ a := .ok (if a = 132 then 0 else if a = 131 then 1 else 2)
  en := 1
  levels _ a := if a = 132 then PathDemo.n0.levels else PathDemo.n1.levels
  maxc := 10

/-- A fragment on the level at one half. -/
noncomputable def low : Job ℝ := ⟨tb, PathDemo.par, 50, 132, 1 / 2, 0, 1⟩

/-- A fragment that can emit a neutron. -/
noncomputable def high : Job ℝ := ⟨tb, PathDemo.par, 50, 132, 4, 0, -1⟩

noncomputable def alone : Nuc ℝ := ⟨50, 132, PathDemo.n0.levels, 0, false, 1⟩

theorem low_chain : IsChain low [alone] := by
  refine ⟨0, fun _ => 0, ?_, ?_⟩
  · norm_num [totalNeutrons, countOpen, low, tb, bind, Res.bind, pure]
  · norm_num [initSystem, masses, initLoop, low, tb, bind, Res.bind, pure, alone]

theorem alone_chained : Chained { PathDemo.par with chain := [alone] } (1 / 2) where
  spins := by decide
  width := zero_lt_one
  room := by show 1 < 50; norm_num
  grid := ⟨4, by show 4 < 10; norm_num, by show (1 / 2 : ℝ) < 1 * _; norm_num⟩
  levels := by
    intro x hx
    obtain rfl : x = alone := by simpa using hx
    exact ⟨by simp [alone, PathDemo.n0], by norm_num [elmax, alone, PathDemo.n0]⟩
  other := by
    intro n x hx
    rcases n with _ | n
    · cases hx; decide
    · cases hx
  daughter := by
    intro x hx hs
    obtain rfl : x = alone := by simpa using hx
    cases hs
  level := by
    intro x hx l hl
    obtain rfl : x = alone := by simpa using hx
    exact (PathDemo.chained 4 le_rfl).level PathDemo.n0 (List.mem_cons_self ..) l hl
  phys := fun _ _ => LawDemo.ph_nonneg
  photon := by
    intro n a b ma mb p j e hn hp hj0 hj1 _ _
    have hj : j = 0 := by
      have : j < ((1 : Nat) : Int) := hj1
      omega
    have ha : a = alone := by
      rcases n with _ | n
      · cases hn; rfl
      · cases hn
    subst ha
    exact PathDemo.photon_pos (a := PathDemo.n0) (b := b) (ma := ma) (mb := mb) (.inl rfl) hp hj

/-- The level is left with or without conversion. -/
def by1 (conv : Bool) : Want := ⟨0, [], [(1, conv)]⟩

theorem low_ready (conv : Bool) : JobReady 100 low [alone] (by1 conv) :=
  ⟨low_chain, alone_chained, PathDemo.measurable, ⟨le_rfl, by decide⟩, ⟨alone, rfl, PathDemo.proper, by simp [by1, start, alone, PathDemo.n0],
    .inl le_rfl⟩, by simp [by1], by simp [by1, start, low, PathDemo.par]⟩

theorem low_chance (conv : Bool) : jobChance low [alone] (by1 conv) = ENNReal.ofReal (if conv then 1 / 10 else 9 / 10) := by
  have hs : setup PathDemo.par.w PathDemo.par.nbin (elmax alone.levels) (1 / 2) = .ok ⟨2, 0, excOf 1 (1 / 2) 2⟩ := by
    norm_num [setup, firstAbove, PathDemo.par, elmax, alone, PathDemo.n0, binEnergy, List.range_succ, List.range'_succ, ncontOf, Res.bind_ok, excOf]
  have h1 : PathDemo.n0.levels[1]? = some ⟨1 / 2, 2, 1, 0, [⟨0, 1, 9 / 10⟩]⟩ := rfl
  have hst : startLevel alone ⟨2, 0, excOf 1 (1 / 2) 2⟩ (1 / 2) = 1 := by
    norm_num [startLevel, alone, PathDemo.n0, nearest]
  simp only [jobChance, decayChance, low, by1, List.getElem?_cons_zero, hs, if_true, start, hst]
  rw [if_pos (by simp)]
  cases conv <;> norm_num [alone, weight, h1, Branching.step, start]

theorem high_chain : IsChain high [PathDemo.n0, PathDemo.n1] := by
  refine ⟨1, fun _ => 0, ?_, ?_⟩
  · norm_num [totalNeutrons, countOpen, high, tb, bind, Res.bind, pure]
  · norm_num [initSystem, masses, initLoop, high, tb, bind, Res.bind, pure, PathDemo.n0, PathDemo.n1]

/-- A neutron below one unit and a photon, which ends on the ground state of the daughter. -/
noncomputable def neutron : Want := ⟨1, [(.neutron, Set.Iio 1), (.gamma, Set.univ)], []⟩

theorem ground_proper : Proper PathDemo.n1.levels := by
  have key : ∀ (i : Nat) (l : Level ℝ), PathDemo.n1.levels[i]? = some l → i = 0 ∧ l = ⟨0, 1, 1, 0, []⟩ := by
    intro i l h
    rcases i with _ | i
    · cases h; exact ⟨rfl, rfl⟩
    · cases h
  refine ⟨?_, ?_, ?_, ?_⟩
  · intro i l h b hb
    obtain ⟨rfl, rfl⟩ := key i l h; simp at hb
  · intro i l h b hb
    obtain ⟨rfl, rfl⟩ := key i l h; simp at hb
  · intro i l h b hb
    obtain ⟨rfl, rfl⟩ := key i l h; simp at hb
  · intro i l hi h
    obtain ⟨rfl, rfl⟩ := key i l h; exact absurd rfl hi

theorem high_ready : JobReady 100 high [PathDemo.n0, PathDemo.n1] neutron :=
  ⟨high_chain, PathDemo.chained 4 le_rfl, PathDemo.measurable, ⟨le_rfl, by decide⟩, ⟨PathDemo.n1, rfl, ground_proper,
    by simp [neutron, start, PathDemo.n1], .inl le_rfl⟩, by simp [neutron, measurableSet_Iio], by simp [neutron, start, high, PathDemo.par]⟩

end RunsDemo

/-- A fragment that emits a neutron followed by one that emits a conversion electron. -/
example (e e' : Nat → ℝ) (hs : List (Hist ℝ)) (jm : Nat → Int) :
    stream {ω | ∃ k x y, oneProgram 10 50 50 [(RunsDemo.high, e), (RunsDemo.low, e')] ⟨hs, List.replicate 100 7, jm⟩ (pre ω k) =
        .ok ([x, y], []) ∧ Records 1 [(.neutron, Set.Iio 1), (.gamma, Set.univ)] [] x.1 ∧ Records 0 [] [(1, true)] y.1} =
      stream {ω | ∃ k x, RunsDemo.high.run ⟨hs, List.replicate 100 7, jm⟩ e (pre ω k) = .ok (x, []) ∧
          Records 1 [(.neutron, Set.Iio 1), (.gamma, Set.univ)] [] x.hs} *
        stream {ω | ∃ k x, RunsDemo.low.run ⟨hs, List.replicate 100 7, jm⟩ e' (pre ω k) = .ok (x, []) ∧ Records 0 [] [(1, true)] x.hs} :=
  C117_pair 10 50 50 RunsDemo.high RunsDemo.low e e' _ _ RunsDemo.neutron (RunsDemo.by1 true) ⟨hs, List.replicate 100 7, jm⟩
    (by simpa using RunsDemo.high_ready) (by simpa using RunsDemo.low_ready true)

/-- Two fragments on the same level: the first one emits a conversion electron and the second one a photon with probability
`1/10 * 9/10`. -/
example (e e' : Nat → ℝ) (hs : List (Hist ℝ)) (jm : Nat → Int) :
    stream {ω | ∃ k r, oneProgram 10 50 50 [(RunsDemo.low, e), (RunsDemo.low, e')] ⟨hs, List.replicate 100 7, jm⟩ (pre ω k) = .ok (r, []) ∧
      Shows [RunsDemo.by1 true, RunsDemo.by1 false] r} = ENNReal.ofReal (9 / 100) := by
  have h := C117_events 10 50 50 [(RunsDemo.low, e), (RunsDemo.low, e')]
    [([RunsDemo.alone], RunsDemo.by1 true), ([RunsDemo.alone], RunsDemo.by1 false)] ⟨hs, List.replicate 100 7, jm⟩
    (.cons (by simpa using RunsDemo.low_ready true) (.cons (by simpa using RunsDemo.low_ready false) .nil))
  simp only [List.map_cons, List.map_nil] at h
  rw [h]
  simp only [List.zipWith_cons_cons, List.zipWith_nil_left, List.prod_cons, List.prod_nil, RunsDemo.low_chance, mul_one]
  rw [← ENNReal.ofReal_mul (by norm_num)]
  norm_num

end CGMF.Props

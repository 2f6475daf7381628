import Verif.Proofs.Driver

/-!
# C07 - C11, C61: seeds, reproducibility, time window, run summary, generator
-/

set_option linter.unusedSectionVars false
set_option linter.unusedSimpArgs false

namespace CGMF.Props

open CGMF CGMF.Driver CGMF.Spec

/-! ## Seeds -/

/-- **C07.**  Reading the seeds of all ranks in rank order gives exactly the contiguous block
`start, start+1, ..., start + np*n - 1`, each once. -/
theorem C07_seeds_tile (np n : Nat) (start : Int) :
    (List.range np).flatMap
        (fun r : Nat => (List.range n).map (fun i : Nat => seedOf (n : Int) start (r : Int) (i : Int)))
      = (List.range (np * n)).map (fun k : Nat => start + (k : Int)) := by
  induction np with
  | zero => simp
  | succ m ih =>
    rw [List.range_succ, List.flatMap_append, ih, Nat.succ_mul, List.range_add, List.map_append]
    congr 1
    simp only [List.flatMap_cons, List.flatMap_nil, List.append_nil, List.map_map]
    apply List.map_congr_left
    intro i _
    simp only [seedOf, Function.comp]
    push_cast
    ring

/-- C07, second half: no two events of a run, on any ranks, share a seed. -/
theorem C07_seeds_injective (n : Nat) (start : Int) (r r' i i' : Nat)
    (hi : i < n) (hi' : i' < n)
    (h : seedOf (n : Int) start (r : Int) (i : Int) = seedOf (n : Int) start r' i') :
    r = r' ∧ i = i' := by
  simp only [seedOf] at h
  have h1 : i + r * n = i' + r' * n := by
    have : (i : Int) + r * n = i' + r' * n := by linarith
    exact_mod_cast this
  have hr : r = r' := by
    have a : (i + r * n) / n = r := by
      rw [Nat.add_mul_div_right _ _ (by omega), Nat.div_eq_of_lt hi]; simp
    have b : (i' + r' * n) / n = r' := by
      rw [Nat.add_mul_div_right _ _ (by omega), Nat.div_eq_of_lt hi']; simp
    rw [← a, ← b, h1]
  subst hr
  exact ⟨rfl, by omega⟩

example : (List.range 2).flatMap (fun r : Nat => (List.range 3).map
    (fun i : Nat => seedOf 3 10 (r : Int) (i : Int))) = [10, 11, 12, 13, 14, 15] := by decide

variable {S K Ev : Type} [Field K] [LinearOrder K] [IsStrictOrderedRing K]

/-! ## Reproducibility -/

/-- The window that governs every event of a run with option `-t w`. -/
def effectiveWindow (w : K) : K := if w > 0 then w else -1

private theorem eventLoop_eq (E : Engine S K) (gen : Reaction K → K → S → Ev × S)
    (rx : Reaction K) (timew : K) (nevents start ip : Int) :
    ∀ (n : Nat) (i : Int) (rng : Rng S) (l : Lib S K),
      (l.firstcalc = true ∧ l.window = -1 ∨
        l.firstcalc = false ∧ l.window = effectiveWindow timew) →
      eventLoop E gen rx timew nevents start ip n i rng l =
        .ok ((List.range n).map (fun k : Nat =>
          (gen rx (effectiveWindow timew) (E.seeded (seedOf nevents start ip (i + k)))).1)) := by
  intro n
  induction n with
  | zero => intro i rng l _; simp [eventLoop]
  | succ n ih =>
    intro i rng l hl
    have hw : windowAfter (setRng l (rng.setSeed E (seedOf nevents start ip i))) timew
        = effectiveWindow timew := by
      rcases hl with ⟨h1, h2⟩ | ⟨h1, h2⟩ <;> simp [windowAfter, setRng, h1, h2, effectiveWindow]
    simp only [eventLoop, newEvent, setRng, hw, Rng.setSeed, Res.bind_ok]
    simp only [setRng, Rng.setSeed] at hw
    rw [hw, ih _ _ _ (Or.inr ⟨rfl, rfl⟩)]
    simp only [Res.bind_ok, Res.pure_eq, List.range_succ_eq_map, List.map_cons, List.map_map]
    congr 2
    · simp
    · apply List.map_congr_left
      intro k _
      simp only [Function.comp]
      push_cast
      ring_nf

/-- **C08.**  Every event of a run is the function `gen` of the reaction, the window option and its
own seed; nothing generated earlier in the process influences it. -/
theorem C08_event_from_seed (E : Engine S K) (gen : Reaction K → K → S → Ev × S)
    (rx : Reaction K) (timew : K) (nevents : Nat) (start ip : Int) :
    runRank E gen rx timew nevents start ip =
      .ok ((List.range nevents).map (fun i : Nat =>
        (gen rx (effectiveWindow timew) (E.seeded (start + ip * nevents + i))).1)) := by
  unfold runRank
  rw [eventLoop_eq E gen rx timew nevents start ip nevents 0 _ _ (Or.inl ⟨rfl, rfl⟩)]
  congr 1
  apply List.map_congr_left
  intro i _
  simp only [seedOf]
  ring_nf

/-- **C08.**  Splitting: a run of `n1 + n2` events equals a run of `n1` events followed by a run
of `n2` events started at the next seed. -/
theorem C08_split (E : Engine S K) (gen : Reaction K → K → S → Ev × S)
    (rx : Reaction K) (timew : K) (n1 n2 : Nat) (start : Int) :
    ∃ a b, runRank E gen rx timew n1 start 0 = .ok a ∧
      runRank E gen rx timew n2 (start + n1) 0 = .ok b ∧
      runRank E gen rx timew (n1 + n2) start 0 = .ok (a ++ b) := by
  refine ⟨_, _, C08_event_from_seed .., C08_event_from_seed .., ?_⟩
  rw [C08_event_from_seed, List.range_add, List.map_append]
  congr 2
  · simp
  · rw [List.map_map]
    apply List.map_congr_left
    intro i _
    simp only [Function.comp]
    push_cast
    ring_nf

/-- **C08.**  Parallel run: the outputs of ranks `0..np-1`, concatenated, are the output of one
serial run of `np*n` events. -/
theorem C08_parallel_equals_serial (E : Engine S K) (gen : Reaction K → K → S → Ev × S)
    (rx : Reaction K) (timew : K) (np n : Nat) (start : Int) :
    ∃ out : Nat → List Ev,
      (∀ r : Nat, runRank E gen rx timew n start (r : Int) = .ok (out r)) ∧
      runRank E gen rx timew (np * n) start 0 = .ok ((List.range np).flatMap out) := by
  refine ⟨fun r : Nat => (List.range n).map (fun i : Nat =>
        (gen rx (effectiveWindow timew) (E.seeded (start + (r : Int) * n + i))).1),
    fun r => C08_event_from_seed .., ?_⟩
  rw [C08_event_from_seed]
  congr 1
  have h := congrArg (List.map (fun s => (gen rx (effectiveWindow timew) (E.seeded s)).1))
    (C07_seeds_tile np n start)
  rw [List.map_map] at h
  simp only [List.map_flatMap, List.map_map] at h
  have h1 : (List.range (np * n)).map (fun i : Nat =>
      (gen rx (effectiveWindow timew) (E.seeded (start + 0 * ((np * n : Nat) : Int) + i))).1)
      = (List.range (np * n)).map
        ((fun s => (gen rx (effectiveWindow timew) (E.seeded s)).1) ∘ fun k : Nat => start + (k : Int)) := by
    apply List.map_congr_left
    intro i _
    simp
  rw [h1, ← h]
  congr 1
  funext r
  apply List.map_congr_left
  intro i _
  simp only [Function.comp, seedOf]
  ring_nf

/-- A toy engine and generator showing the theorems are not vacuous: the event is the pair of
window and seed. -/
def toyEngine : Engine Int ℚ := ⟨0, id, fun s => (1 / 2, s + 1)⟩
/-- See `toyEngine`. -/
def toyGen : Reaction ℚ → ℚ → Int → (ℚ × Int) × Int := fun _ w s => ((w, s), s + 3)

example : runRank toyEngine toyGen ⟨98252, 0⟩ (1 / 100) 3 5 1
    = .ok [(1 / 100, 8), (1 / 100, 9), (1 / 100, 10)] := by decide +kernel

/-! ## Time window -/

/-- A sequence of event constructions in one process, each with its own window; returns the window
actually in force for each.  The generator is assumed installed. -/
def windowsInForce (gen : Reaction K → K → S → Ev × S) (rx : Reaction K) :
    List K → Lib S K → Res (List K)
  | [], _ => .ok []
  | w :: ws, l => do
    let (_, l') ← newEvent gen l rx w
    let rest ← windowsInForce gen rx ws l'
    pure (l'.window :: rest)

private theorem windows_after_first (gen : Reaction K → K → S → Ev × S) (rx : Reaction K) :
    ∀ (ws : List K) (l : Lib S K), l.rng.isSome → l.firstcalc = false →
      windowsInForce gen rx ws l = .ok (List.replicate ws.length l.window) := by
  intro ws
  induction ws with
  | nil => intro l _ _; simp [windowsInForce]
  | cons w ws ih =>
    intro l hr hf
    obtain ⟨r, hr⟩ := Option.isSome_iff_exists.1 hr
    simp only [windowsInForce, newEvent, hr, Res.bind_ok]
    rw [ih _ rfl rfl]
    simp [windowAfter, hf, List.replicate_succ]

/-- **C09**, exact behaviour: whatever windows later events ask for, the window in force for every
event of the process is the one of the first event if that was positive, and infinite (`-1`)
otherwise. -/
theorem C09_window_exact (gen : Reaction K → K → S → Ev × S) (rx : Reaction K)
    (r : Rng S) (w : K) (ws : List K) :
    windowsInForce gen rx (w :: ws) (setRng Lib.init r)
      = .ok (List.replicate (ws.length + 1) (effectiveWindow w)) := by
  simp only [windowsInForce, newEvent, setRng, Lib.init, Res.bind_ok]
  rw [windows_after_first gen rx ws _ rfl rfl]
  simp [windowAfter, effectiveWindow, List.replicate_succ]

/-- C09, the claim as documented, and its failure: there are two consecutive events asking for
different windows for which the second does not get its own. -/
theorem C09_window_refuted (gen : Reaction K → K → S → Ev × S) (rx : Reaction K) (r : Rng S) :
    ∃ ws : List K, (∀ w ∈ ws, 0 < w) ∧
      windowsInForce gen rx ws (setRng Lib.init r) ≠ .ok ws := by
  refine ⟨[1, 2], by norm_num, ?_⟩
  rw [C09_window_exact]
  simp [effectiveWindow, List.replicate_succ]

/-- **C09**, what holds: if all events of the process ask for the same window, and it is positive
or `-1`, each gets it. -/
theorem C09_window_partial (gen : Reaction K → K → S → Ev × S) (rx : Reaction K)
    (r : Rng S) (w : K) (n : Nat) (hw : 0 < w ∨ w = -1) :
    windowsInForce gen rx (List.replicate n w) (setRng Lib.init r)
      = .ok (List.replicate n w) := by
  cases n with
  | zero => simp [windowsInForce]
  | succ n =>
    rw [List.replicate_succ, C09_window_exact]
    have : effectiveWindow w = w := by
      rcases hw with h | rfl
      · simp [effectiveWindow, h]
      · simp [effectiveWindow]
    simp [this, List.replicate_succ]

/-- C09: a window of zero passes the driver's check but means an infinite window. -/
theorem C09_zero_window_is_infinite :
    checkWindow (0 : K) = .ok () ∧ effectiveWindow (0 : K) = -1 ∧
    (∀ w : K, checkWindow w = .ok () ↔ 0 ≤ w ∨ w = -1) := by
  refine ⟨by simp [checkWindow], by simp [effectiveWindow], fun w => ?_⟩
  unfold checkWindow
  split_ifs with h1 h2
  · simp [h2]; exact h1
  · simp only [true_iff]; right; simpa using h2
  · simp [not_lt.1 h1]

example : (0 : ℚ) < 1 / 100000000 ∨ (1 / 100000000 : ℚ) = -1 := by left; norm_num

/-- The progress line of the driver never divides by zero. -/
theorem C08_progress_safe (nevents i ip : Int) : progressTest nevents i ip ≠ .ub := by
  unfold progressTest
  by_cases h : nevents ≥ 1000
  · have : nevents.tdiv 100 ≠ 0 := by
      rw [Int.tdiv_eq_ediv_of_nonneg (by omega)]; omega
    simp only [h, if_true, this, if_false]
    split_ifs <;> simp
  · simp [h]

/-! ## Random generator -/

/-- The `k`-th number of the stream of a seed, from the engine alone. -/
def streamOf (E : Engine S K) (seed : Int) (k : Nat) : K :=
  (E.next ((fun t => (E.next t).2)^[k] (E.seeded seed))).1

/-- **C61.**  After any history of draws and reseedings, reseeding with `s` and drawing `n` numbers
yields exactly the numbers `0..n-1` of the stream of `s`: nothing of the history, of the
constructor argument or of earlier seeds survives; and the numbers drawn before are unaffected. -/
theorem C61_stream_from_seed (E : Engine S K) (s0 s : Int) (ops : List RngOp) (n : Nat) :
    (Rng.run E (ops ++ .setSeed s :: List.replicate n .draw) (Rng.new E s0)).1
      = (Rng.run E ops (Rng.new E s0)).1 ++ (List.range n).map (streamOf E s) := by
  have happ : ∀ (a b : List RngOp) (r : Rng S), (Rng.run E (a ++ b) r).1
      = (Rng.run E a r).1 ++ (Rng.run E b (Rng.run E a r).2).1 := by
    intro a
    induction a with
    | nil => intro b r; simp [Rng.run]
    | cons o a ih => intro b r; cases o <;> simp [Rng.run, ih]
  have hdraw : ∀ (m : Nat) (r : Rng S), (Rng.run E (List.replicate m .draw) r).1
      = (List.range m).map (fun k => (E.next ((fun t => (E.next t).2)^[k] r.gen)).1) := by
    intro m
    induction m with
    | zero => intro r; simp [Rng.run]
    | succ m ih =>
      intro r
      simp only [List.replicate_succ, Rng.run, List.range_succ_eq_map, List.map_cons,
        List.map_map, ih]
      simp [Rng.draw, Function.comp_def, Function.iterate_succ_apply]
  rw [happ]
  congr 1
  simp only [Rng.run, hdraw]
  rfl

example : (Rng.run (⟨0, id, fun s => ((s : ℚ), s + 1)⟩ : Engine Int ℚ)
    [.draw, .setSeed 40, .draw, .setSeed 7, .draw, .draw]
    (Rng.new (⟨0, id, fun s => ((s : ℚ), s + 1)⟩ : Engine Int ℚ) 3)).1 = [0, 40, 7, 8] := by
  decide +kernel

/-- C61: the seed given to the constructor has no influence on the stream (refuting what the
signature suggests): all freshly constructed generators produce the same numbers. -/
theorem C61_constructor_seed_ignored (E : Engine S K) (s s' : Int) (n : Nat) :
    Rng.draws E n (Rng.new E s) = Rng.draws E n (Rng.new E s') := by
  have gen : ∀ n (a b : Rng S), a.gen = b.gen → Rng.draws E n a = Rng.draws E n b := by
    intro n
    induction n with
    | zero => intros; rfl
    | succ n ih =>
      intro a b h
      simp only [Rng.draws, Rng.draw, h]
      congr 1
      exact ih _ _ (by simp)
  exact gen n _ _ rfl

/-- C61: installing a generator stores a copy: generating events leaves the caller's generator,
and so the seeds it will use, untouched; and an event generated after installing `r` does not depend
on what was installed before. -/
theorem C61_install_copies (gen : Reaction K → K → S → Ev × S) (rx : Reaction K) (w : K)
    (l l' : Lib S K) (r : Rng S) (h : l.firstcalc = l'.firstcalc) (hw : l.window = l'.window) :
    newEvent gen (setRng l r) rx w = newEvent gen (setRng l' r) rx w := by
  simp [newEvent, setRng, windowAfter, h, hw]

/-- Without an installed generator event construction fails instead of using garbage. -/
theorem C61_no_generator_fails (gen : Reaction K → K → S → Ev × S) (rx : Reaction K) (w : K) :
    newEvent gen (Lib.init : Lib S K) rx w = .exit := rfl

example : Rng.draws (⟨0, id, fun s => ((s : ℚ), s + 1)⟩ : Engine Int ℚ) 2
    ((Rng.new ⟨0, id, fun s => ((s : ℚ), s + 1)⟩ 7 : Rng Int).setSeed
      (⟨0, id, fun s => ((s : ℚ), s + 1)⟩ : Engine Int ℚ) 7) = [7, 8] := by decide +kernel

/-! ## Summary -/

/-- **C10.**  The numbers printed at the end of a (parallel) run are the means over all events of all
ranks, and the per-particle energies are means over all particles, computed from the list of all
events and not from the accumulators. -/
theorem C10_summary (ranks : List (List (Content K))) (n : Nat) (hne : ranks ≠ [])
    (hlen : ∀ r ∈ ranks, r.length = n) (hn : 0 < n) :
    finalSummary (ranks.map (fun r => r.map Content.view)) n
      = .ok (specSummary ranks.flatten) := by
  obtain ⟨r0, rs, rfl⟩ := List.exists_cons_of_ne_nil hne
  have hr0 : r0 ≠ [] := by
    intro h
    have := hlen r0 (by simp)
    rw [h] at this; simp at this; omega
  have htot : ((r0 :: rs).flatten).length = (r0 :: rs).length * n := by
    rw [List.length_flatten]
    have : (r0 :: rs).map List.length = List.replicate (r0 :: rs).length n := by
      rw [List.eq_replicate_iff]
      refine ⟨by simp, ?_⟩
      intro b hb
      obtain ⟨r, hr, rfl⟩ := List.mem_map.1 hb
      exact hlen r hr
    rw [this]; simp
  have hfold : ((r0 :: rs).map (fun r => r.map Content.view)).map
      (fun r => r.foldl recordEvent Sums.zero) = (r0 :: rs).map totals := by
    rw [List.map_map]
    apply List.map_congr_left
    intro r _
    exact foldl_totals r
  unfold finalSummary
  simp only [List.map_cons]
  rw [if_neg (by simpa using hr0)]
  simp only [List.map_cons] at hfold
  rw [hfold]
  have hred := reduce_totals (r0 :: rs)
  simp only [List.map_cons] at hred
  rw [hred]
  congr 1
  have hl : ((List.length ((List.map Content.view r0) :: List.map (fun r => List.map Content.view r) rs)
      * n : Nat) : Int) = (((r0 :: rs).flatten).length : Int) := by
    rw [htot]; simp
  rw [hl]
  generalize (r0 :: rs).flatten = evs
  have hm : ∀ f : Content K → Int, (((evs.map f).sum : Int) : K) / ((evs.length : Int) : K)
      = mean evs (fun e => (f e : K)) := by
    intro f
    rw [cast_sum]; simp [mean]
  have hnat : ∀ (α : Type _) (f : Content K → List α),
      (((evs.map (fun e => ((f e).length : Int))).sum : Int) : K) / ((evs.length : Int) : K)
      = mean evs (fun e => ((f e).length : K)) := by
    intro α f
    rw [hm]; simp
  simp only [summary, specSummary, Summary.mk.injEq]
  refine ⟨hm _, hm _, hm _, hm _, ?_, ?_, ?_, ?_, ?_, ?_, ?_, ?_, ?_, ?_, ?_, ?_, ?_, ?_, ?_, ?_, ?_,
    ?_, ?_, ?_, ?_, ?_, ?_, ?_, ?_, ?_, ?_⟩
  · simp [mean, totals]
  · simp [mean, totals]
  · simp only [mean, totals, sum_add]; simp
  · simp [mean, totals]
  · simp [mean, totals]
  · simp only [mean, totals, sum_add]; simp
  · simp [mean, totals]
  · simp [mean, totals]
  · simp only [mean, totals, sum_add, sum_div _ _ (2 : K)]; simp
  · exact hnat _ _
  · exact hnat _ _
  · exact hnat _ _
  · simp only [mean, totals]
    push_cast
    rw [cast_sum, cast_sum, cast_sum, sum_add, sum_add]
    push_cast
    rfl
  · exact perParticle_eq _ _ _ _ rfl (by simp [totals])
  · exact perParticle_eq _ _ _ _ rfl (by simp [totals])
  · exact perParticle_eq _ _ _ _ rfl (by simp [totals])
  · apply perParticle_eq
    · simp only [totals, sum_add]; congr 1; apply List.map_congr_left; intro e _
      simp [add_assoc]
    · simp only [totals]
      have : ∀ f g : Content K → Int, (evs.map f).sum + (evs.map g).sum
          = (evs.map (fun e => f e + g e)).sum := by
        intro f g; rw [← List.sum_map_add]
      rw [this, this]; congr 1; apply List.map_congr_left; intro e _
      simp [add_assoc]
  · exact perParticle_eq _ _ _ _ rfl (by simp [totals])
  · exact perParticle_eq _ _ _ _ rfl (by simp [totals])
  · exact perParticle_eq _ _ _ _ rfl (by simp [totals])
  · apply perParticle_eq
    · simp only [totals, sum_add]; congr 1; apply List.map_congr_left; intro e _
      simp [add_assoc]
    · simp only [totals]
      have : ∀ f g : Content K → Int, (evs.map f).sum + (evs.map g).sum
          = (evs.map (fun e => f e + g e)).sum := by
        intro f g; rw [← List.sum_map_add]
      rw [this, this]; congr 1; apply List.map_congr_left; intro e _
      simp [add_assoc]
  · exact hnat _ _
  · exact hnat _ _
  · simp only [mean, totals]
    push_cast
    rw [cast_sum, cast_sum, sum_add]
    push_cast
    rfl
  · exact perParticle_eq _ _ _ _ rfl (by simp [totals])
  · exact perParticle_eq _ _ _ _ rfl (by simp [totals])
  · apply perParticle_eq
    · simp only [totals, sum_add]; congr 1; apply List.map_congr_left; intro e _
      simp
    · simp only [totals]
      have : ∀ f g : Content K → Int, (evs.map f).sum + (evs.map g).sum
          = (evs.map (fun e => f e + g e)).sum := by
        intro f g; rw [← List.sum_map_add]
      rw [this]; congr 1; apply List.map_congr_left; intro e _
      simp

/-- C10, error branch: a run of zero events dereferences a null event in the summary. -/
theorem C10_zero_events_undefined (np : Nat) :
    finalSummary (K := K) (List.replicate (np + 1) []) 0 = .ub := by
  simp [finalSummary, List.replicate_succ]

/-- **C11.**  After any sequence of recorded events (with arbitrary getters), the totals are the sums
of their parts. -/
theorem C11_totals_consistent (evs : List (View K)) (s : Sums K)
    (h : s = evs.foldl recordEvent Sums.zero) :
    s.nuTot = s.nuL + s.nuH + s.nuPre ∧ s.nugTot = s.nugL + s.nugH ∧
    s.tke = s.keL + s.keH ∧ s.txe = s.xeL + s.xeH ∧ 2 * s.j = s.jL + s.jH ∧
    s.ecm = s.ecmL + s.ecmH + s.enPre ∧ s.eLab = s.elabL + s.elabH + s.enPre ∧
    s.eg = s.egL + s.egH ∧
    s.nuTot = ((evs.map (fun e => e.nuL + e.nuH + e.nuPre)).sum : Nat) := by
  subst h
  have h2 : (2 : K) ≠ 0 := by norm_num
  induction evs using List.reverseRecOn with
  | nil => simp [Sums.zero]
  | append_singleton es e ih =>
    obtain ⟨h1, _, _, _, _, _, _, _, h9⟩ := ih
    rw [List.foldl_append]
    simp only [List.foldl_cons, List.foldl_nil]
    refine ⟨rfl, rfl, rfl, rfl, ?_, rfl, rfl, rfl, ?_⟩
    · simp only [recordEvent]; field_simp
    · rw [h1] at h9
      simp only [recordEvent, List.map_append, List.map_cons, List.map_nil, List.sum_append,
        List.sum_cons, List.sum_nil]
      push_cast at h9 ⊢
      linarith

/-- Two events on two ranks: the hypotheses of `C10_summary` are met and the summary is not trivial. -/
def exampleContent (k : ℚ) (n : Nat) : Content ℚ :=
  ⟨100, 40, 152, 58, 100 + k, 70, 20, 15, 7, 9, List.replicate n (1, 2), [(3, 4)], [5], [1], []⟩

example : (finalSummary ([[exampleContent 0 2], [exampleContent 2 1]].map
      (fun r => r.map Content.view)) 1).bind (fun s => .ok (s.keL, s.nuTot, s.elabTot))
    = .ok (101, 7 / 2, 24 / 7) := by decide +kernel

end CGMF.Props

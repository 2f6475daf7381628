import Verif.Proofs.PathLaw
import Verif.Props.Spectrum

/-! # Law of a whole continuum decay -/

namespace CGMF.HF

open MeasureTheory CGMF.Law CGMF.MC CGMF.Grid CGMF.Props

variable {par : Par ℝ} {st : St ℝ} {m : MCPoint ℝ} {n0 n1 : Nuc ℝ} {m0 m1 : Mesh ℝ}

open Classical in
/-- Follow a pattern of particles; undefined as soon as the decay leaves it. -/
noncomputable def walk (par : Par ℝ) (Q : Nat → Nat → Prop) : List (Pid × Set ℝ) → MCPoint ℝ → Rnd ℝ Unit
  | [], m => if m.disc = true ∧ Q m.n m.k then pure () else Rnd.undef
  | c :: cs, m => if m.disc = true then Rnd.undef else
      step par m >>= fun x => if Emits par c m x then walk par Q cs x else Rnd.undef

/-- No history yet. -/
def blank : St ℝ := ⟨[], [], fun _ => 0⟩

theorem Pass.other_state (h : Pass par st m n0 n1 m0 m1) {st' : St ℝ} (hr : st'.hs.length + 1 < par.cap) :
    Pass par st' m n0 n1 m0 m1 := { h with room := hr }

/-! ## Measurability -/

theorem local_walk (Q : Nat → Nat → Prop) : ∀ (cs : List (Pid × Set ℝ)) (m : MCPoint ℝ), Local (walk par Q cs m) := by
  intro cs
  induction cs with
  | nil =>
    intro m
    unfold walk
    split
    · exact local_pure _
    · exact local_undef
  | cons c cs ih =>
    intro m
    unfold walk
    split
    · exact local_undef
    · refine local_bind local_step fun x => ?_
      split
      · exact ih x
      · exact local_undef

theorem measurable_n : Measurable fun x : MCPoint ℝ => x.n := measurable_fst.comp (measurable_fst.comp measurable_parts)

theorem measurable_emits (c : Pid × Set ℝ) (hc : MeasurableSet c.2) : MeasurableSet {y : MCPoint ℝ × MCPoint ℝ | Emits par c y.1 y.2} := by
  have h1 : Measurable fun y : MCPoint ℝ × MCPoint ℝ => y.1.n := measurable_n.comp measurable_fst
  have h2 : Measurable fun y : MCPoint ℝ × MCPoint ℝ => y.2.n := measurable_n.comp measurable_snd
  have h3 : Measurable fun y : MCPoint ℝ × MCPoint ℝ => y.1.e - y.2.e :=
    (measurable_energy.comp measurable_fst).sub (measurable_energy.comp measurable_snd)
  have heq : MeasurableSet {y : MCPoint ℝ × MCPoint ℝ | y.1.n = y.2.n} := measurableSet_eq_fun h1 h2
  have e : {y : MCPoint ℝ × MCPoint ℝ | Emits par c y.1 y.2} =
      ({y | y.1.n = y.2.n} ∩ ({_y | c.1 = .gamma} ∩ {y | y.1.e - y.2.e ∈ c.2})) ∪
      ({y | y.1.n = y.2.n}ᶜ ∩ ({_y | c.1 = .neutron} ∩
        ⋃ i : Nat, ({y | y.1.n = i} ∩ {y | ∃ n0, par.chain[i]? = some n0 ∧ y.1.e - y.2.e - n0.sn ∈ c.2}))) := by
    ext y
    unfold Emits
    by_cases h : y.1.n = y.2.n <;> simp [h]
  rw [e]
  refine (heq.inter ((MeasurableSet.const _).inter (h3 hc))).union (heq.compl.inter ((MeasurableSet.const _).inter
    (MeasurableSet.iUnion fun i => (h1 (measurableSet_singleton i)).inter ?_)))
  cases hi : par.chain[i]? with
  | none => simp
  | some n0 =>
    have : {y : MCPoint ℝ × MCPoint ℝ | ∃ n0', some n0 = some n0' ∧ y.1.e - y.2.e - n0'.sn ∈ c.2} = {y | y.1.e - y.2.e - n0.sn ∈ c.2} := by
      ext y
      simp
    rw [this]
    exact (h3.sub_const _) hc

theorem jm_after (hp : ∀ n, PhysMeasurable (par.phys n)) (Q : Nat → Nat → Prop) : ∀ (cs : List (Pid × Set ℝ)), (∀ c ∈ cs, MeasurableSet c.2) →
    JM (walk par Q cs) := by
  classical
  intro cs
  induction cs with
  | nil =>
    intro _
    have e : walk par Q [] = fun m : MCPoint ℝ => if m.disc = true ∧ Q m.n m.k then pure () else Rnd.undef := by
      funext m
      rw [walk]
    rw [e]
    refine JM.ite ?_ (JM.pure measurable_const) JM.undef
    exact (cm_key.pred fun κ => κ.2.2.2.2 = true ∧ Q κ.1 κ.2.2.2.1)
  | cons c cs ih =>
    intro hc
    have e : walk par Q (c :: cs) = fun m : MCPoint ℝ => if m.disc = true then Rnd.undef else
        step par m >>= fun x => if Emits par c m x then walk par Q cs x else Rnd.undef := by
      funext m
      rw [walk]
    rw [e]
    refine JM.ite (cm_key.pred fun κ => κ.2.2.2.2 = true) JM.undef ?_
    refine JM.bind (f := step par) (g := fun y : MCPoint ℝ × MCPoint ℝ => if Emits par c y.1 y.2 then walk par Q cs y.2 else Rnd.undef)
      (fun _ => local_step) (jm_step hp) ?_
    exact JM.ite (measurable_emits c (hc c (by simp))) ((ih fun c' h' => hc c' (by simp [h'])).comp measurable_snd) JM.undef

/-! ## Only reached points matter -/

theorem unif_inside : ∀ᵐ r ∂unif, 0 < r ∧ r < 1 := by
  have hm : MeasurableSet {x : ℝ | ¬ (0 < x ∧ x < 1)} := (measurableSet_Ioo (a := (0 : ℝ)) (b := 1)).compl
  show unif {x | ¬ (0 < x ∧ x < 1)} = 0
  unfold unif
  rw [Measure.restrict_apply hm]
  refine measure_mono_null (t := {0}) ?_ (by simp)
  rintro x ⟨h1, h2, h3⟩
  simp only [Set.mem_ofPred_eq, not_and, not_lt] at h1
  by_contra hc
  have : 0 < x := lt_of_le_of_ne h2 (Ne.symm hc)
  exact absurd (h1 this) (not_le.mpr h3)

theorem first_between {α : Type} : ∀ (l1 : List (α × ℝ)) (s r : ℝ) (a : α) (y : ℝ) (l2 : List (α × ℝ)), (∀ z ∈ l1, 0 ≤ z.2) →
    s + (l1.map (·.2)).sum < r → r ≤ s + (l1.map (·.2)).sum + y → firstReach r s (l1 ++ (a, y) :: l2) = some a := by
  intro l1
  induction l1 with
  | nil =>
    intro s r a y l2 _ _ h
    simp only [List.map_nil, List.sum_nil, add_zero] at h
    rw [List.nil_append, firstReach, if_pos h]
  | cons z l1 ih =>
    intro s r a y l2 h0 h1 h2
    rw [List.map_cons, List.sum_cons] at h1 h2
    have : 0 ≤ (l1.map (·.2)).sum := List.sum_nonneg fun x hx => by
      obtain ⟨t, ht, rfl⟩ := List.mem_map.mp hx
      exact h0 t (by simp [ht])
    rw [List.cons_append, firstReach, if_neg (by linarith)]
    exact ih _ _ _ _ _ (fun t ht => h0 t (by simp [ht])) (by linarith) (by linarith)

/-- A state with a positive share is selected by some number. -/
theorem first_hit {α : Type} {l : List (α × ℝ)} (h0 : ∀ z ∈ l, 0 ≤ z.2) (h1 : (l.map (·.2)).sum = 1) {a : α} {y : ℝ} (hm : (a, y) ∈ l)
    (hy : 0 < y) : ∃ r, 0 < r ∧ r < 1 ∧ firstReach r 0 l = some a := by
  obtain ⟨l1, l2, rfl⟩ := List.append_of_mem hm
  have g1 : 0 ≤ (l1.map (·.2)).sum := List.sum_nonneg fun x hx => by
    obtain ⟨t, ht, rfl⟩ := List.mem_map.mp hx
    exact h0 t (by simp [ht])
  have g2 : 0 ≤ (l2.map (·.2)).sum := List.sum_nonneg fun x hx => by
    obtain ⟨t, ht, rfl⟩ := List.mem_map.mp hx
    exact h0 t (by simp [ht])
  rw [List.map_append, List.sum_append, List.map_cons, List.sum_cons] at h1
  refine ⟨(l1.map (·.2)).sum + y / 2, by linarith, by simp only at h1; linarith, ?_⟩
  exact first_between l1 0 _ a y l2 (fun z hz => h0 z (by simp [hz])) (by linarith) (by linarith)

/-- Two functions with the same values at levels and at the points a pass reaches have the same mean. -/
theorem passMean_congr (h : Pass par blank m n0 n1 m0 m1) {z : MCPoint ℝ} (hz : Reached par z m) (hd : m.disc = false)
    {φ ψ : MCPoint ℝ → ENNReal} (h1 : ∀ x, x.disc = true → φ x = ψ x) (h2 : ∀ x, Reached par z x → φ x = ψ x) :
    passMean par φ m = passMean par ψ m := by
  obtain ⟨a1, b1, hg, -⟩ := good_of h
  obtain ⟨jm, hsim⟩ := step_sim h
  have hstep : step par m = body par m n0 a1 m0 b1 := by unfold step; rw [hg.sites]
  rw [passMean_table hg, passMean_table hg]
  congr 1
  apply List.map_congr_left
  intro y hy
  rcases eq_or_lt_of_le (hg.nonneg y hy) with h0 | h0
  · rw [← h0, ENNReal.ofReal_zero, zero_mul, zero_mul]
  congr 1
  obtain ⟨r0, hr0, hr1, hr⟩ := first_hit hg.nonneg hg.sum hy h0
  have hlev : ∀ levels c i, levelValue levels c φ i = levelValue levels c ψ i := by
    intro levels c i
    unfold levelValue
    split
    · exact h1 _ rfl
    · rfl
  have hreach : ∀ r x, 0 < r → r < 1 → land par m n0 a1 m0 b1 y.1 [r] = .ok (x, []) → Reached par z x := by
    intro r x g1 g2 g3
    refine Reached.pass hz hd (s := [r0, r]) (by simp [hr0, hr1, g1, g2]) (st := blank) ?_ (st' := ?_) (y := x)
    exact ⟨blank.hs ++ [emission m n0 x], blank.ts, jm⟩
    rw [hsim [r0, r] (by simp [hr0, hr1, g1, g2])]
    have : step par m [r0, r] = .ok (x, []) := by
      rw [hstep]
      unfold body
      rw [Rnd.bind_run, Rnd.draw_cons]
      simp only [hr]
      exact g3
    rw [Rnd.bind_of_ok this]
    rfl
  obtain ⟨⟨b, c⟩, w⟩ := y
  cases c with
  | disc i =>
    cases b
    · simp only [stateValue]; exact hlev _ _ _
    · simp only [stateValue]; exact hlev _ _ _
  | cont k idx even =>
    cases b
    · simp only [stateValue, overBin]
      apply lintegral_congr_ae
      filter_upwards [unif_inside] with r hri
      simp only [hlev]
      split
      · rfl
      · rename_i hc
        apply h2
        apply hreach r _ hri.1 hri.2
        rw [land, Rnd.bind_run, Rnd.draw_cons]
        have hc' : ¬ moved m0 (elmax n0.levels) k r < elmax n0.levels + par.cut := hc
        simp only [if_neg hc']
        rfl
    · simp only [stateValue, overBin]
      apply lintegral_congr_ae
      filter_upwards [unif_inside] with r hri
      apply h2
      apply hreach r _ hri.1 hri.2
      rw [land, Rnd.bind_run, Rnd.draw_cons]
      rfl

/-- The law of following a pattern. -/
theorem walk_value (hp : ∀ n, PhysMeasurable (par.phys n)) (Q : Nat → Nat → Prop) {z : MCPoint ℝ}
    (H : ∀ x, Reached par z x → x.disc = false → ∃ n0 n1 m0 m1, Pass par blank x n0 n1 m0 m1) :
    ∀ (cs : List (Pid × Set ℝ)), (∀ c ∈ cs, MeasurableSet c.2) → ∀ m, (m.disc = true ∨ Reached par z m) →
      probIn (walk par Q cs m) Set.univ = patternValue par Q cs m := by
  classical
  intro cs
  induction cs with
  | nil =>
    intro _ m _
    unfold walk patternValue
    split
    · rw [probIn_pure]
      simp
    · exact probIn_undef _
  | cons c cs ih =>
    intro hc m hm
    unfold walk patternValue
    by_cases hd : m.disc = true
    · rw [if_pos hd, if_pos hd]
      exact probIn_undef _
    · rw [if_neg hd, if_neg hd]
      have hd' : m.disc = false := by simpa using hd
      have hr : Reached par z m := hm.resolve_left hd
      obtain ⟨n0, n1, m0, m1, hpass⟩ := H m hr hd'
      obtain ⟨a1, b1, hg, -⟩ := good_of hpass
      have hj : JM fun x => if Emits par c m x then walk par Q cs x else Rnd.undef := by
        refine JM.ite ?_ (jm_after hp Q cs fun c' h' => hc c' (by simp [h'])) JM.undef
        exact (measurable_const.prodMk measurable_id : Measurable fun x : MCPoint ℝ => (m, x)) (measurable_emits c (hc c (by simp)))
      have hl : ∀ x, Local (if Emits par c m x then walk par Q cs x else Rnd.undef) := by
        intro x
        split
        · exact local_walk Q cs x
        · exact local_undef
      rw [probIn_step hg hl hj MeasurableSet.univ]
      have key : ∀ x, (x.disc = true ∨ Reached par z x) → probIn (if Emits par c m x then walk par Q cs x else Rnd.undef) Set.univ =
          if Emits par c m x then patternValue par Q cs x else 0 := by
        intro x hx
        split
        · exact ih (fun c' h' => hc c' (by simp [h'])) x hx
        · exact probIn_undef _
      exact passMean_congr hpass hr hd' (fun x hx => key x (.inl hx)) (fun x hx => key x (.inr hx))

/-! ## The loop -/

theorem loop_hist {fuel : Nat} : ∀ {st : St ℝ} {m : MCPoint ℝ} {s s' : List ℝ} {st' : St ℝ} {x : MCPoint ℝ},
    contLoop par fuel st m s = .ok ((st', x), s') → ∃ y ys, st'.hs = st.hs ++ y :: ys := by
  induction fuel with
  | zero => intro st m s s' st' x h; cases h
  | succ fuel ih =>
    intro st m s s' st' x h
    rw [contLoop] at h
    obtain ⟨⟨st1, x1⟩, s1, h1, h2⟩ := Rnd.bind_ok.mp h
    have hn0 : ∃ n0, par.chain[m.n]? = some n0 := by
      obtain ⟨n0', m0, d, pops, x1, x2, jm, s1, s2, s3, s4, s5, h1, -⟩ := contStep_ok h1
      exact ⟨n0', h1⟩
    obtain ⟨n0, hn0⟩ := hn0
    have h3 := contStep_hist hn0 h1
    by_cases hd : x1.disc = true
    · rw [if_pos hd] at h2
      obtain ⟨h4, -⟩ := Rnd.pure_ok.mp h2
      cases h4
      exact ⟨_, [], h3⟩
    · rw [if_neg hd] at h2
      obtain ⟨y, ys, h4⟩ := ih h2
      exact ⟨emission m n0 x1, y :: ys, by rw [h4, h3]; simp⟩

theorem emission_emits (hn : par.chain[m.n]? = some n0) (c : Pid × Set ℝ) (x : MCPoint ℝ) :
    ((emission m n0 x).id = c.1 ∧ (emission m n0 x).ep ∈ c.2) ↔ Emits par c m x := by
  unfold emission Emits
  by_cases h : m.n = x.n
  · simp only [if_pos h]
    exact ⟨fun g => ⟨g.1.symm, g.2⟩, fun g => ⟨g.1.symm, g.2⟩⟩
  · simp only [if_neg h]
    constructor
    · rintro ⟨g1, g2⟩
      exact ⟨g1.symm, n0, hn, g2⟩
    · rintro ⟨g1, n0', g2, g3⟩
      rw [hn] at g2
      cases g2
      exact ⟨g1.symm, g3⟩

theorem loop_walk (Q : Nat → Nat → Prop) {z : MCPoint ℝ}
    (H : ∀ x, Reached par z x → x.disc = false → ∃ n0 n1 m0 m1, Pass par blank x n0 n1 m0 m1) :
    ∀ (cs : List (Pid × Set ℝ)) (fuel : Nat) (st : St ℝ) (m : MCPoint ℝ) (s s' : List ℝ), cs.length ≤ fuel →
      st.hs.length + cs.length < par.cap → m.disc = false → Reached par z m → (∀ r ∈ s, 0 < r ∧ r < 1) →
      ((∃ st' x, contLoop par fuel st m s = .ok ((st', x), s') ∧ (∃ ys, st'.hs = st.hs ++ ys ∧ Matches cs ys) ∧ Q x.n x.k) ↔
        walk par Q cs m s = .ok ((), s')) := by
  intro cs
  induction cs with
  | nil =>
    intro fuel st m s s' _ _ hd _ _
    unfold walk
    rw [if_neg (by rw [hd]; simp)]
    constructor
    · rintro ⟨st', x, h1, ⟨ys, h2, h3⟩, -⟩
      obtain ⟨y, ys', h4⟩ := loop_hist h1
      rw [h4, List.append_cancel_left_eq] at h2
      rw [← h2] at h3
      cases h3
    · intro h; cases h
  | cons c cs ih =>
    intro fuel st m s s' hf hcap hd hr hs
    obtain ⟨fuel, rfl⟩ : ∃ f, fuel = f + 1 := ⟨fuel - 1, by simp only [List.length_cons] at hf; omega⟩
    simp only [List.length_cons] at hf hcap
    obtain ⟨n0, n1, m0, m1, hpass⟩ := H m hr hd
    have hpass' := hpass.other_state (st' := st) (by omega)
    obtain ⟨jm, hsim⟩ := step_sim hpass'
    have hsuf : ∀ x s1, step par m s = .ok (x, s1) → (∀ r ∈ s1, 0 < r ∧ r < 1) := by
      intro x s1 h r hr1
      obtain ⟨p, rfl, -⟩ := local_step s x s1 h
      exact hs r (by simp [hr1])
    have hnext : ∀ x s1, step par m s = .ok (x, s1) → Reached par z x := by
      intro x s1 h
      obtain ⟨p, e, hp⟩ := local_step s x s1 h
      have hp0 := hp []
      rw [List.append_nil] at hp0
      have hps : ∀ r ∈ p, 0 < r ∧ r < 1 := fun r hr1 => hs r (by rw [e]; simp [hr1])
      refine Reached.pass hr hd (s := p) hps (st := st) (st' := ⟨st.hs ++ [emission m n0 x], st.ts, jm⟩) ?_
      rw [hsim p hps, Rnd.bind_of_ok hp0]
      rfl
    have hwalk : walk par Q (c :: cs) m s = .ok ((), s') ↔
        ∃ x s1, step par m s = .ok (x, s1) ∧ Emits par c m x ∧ walk par Q cs x s1 = .ok ((), s') := by
      rw [walk, if_neg (by rw [hd]; simp), Rnd.bind_ok]
      constructor
      · rintro ⟨x, s1, h1, h2⟩
        by_cases he : Emits par c m x
        · rw [if_pos he] at h2
          exact ⟨x, s1, h1, he, h2⟩
        · rw [if_neg he] at h2
          cases h2
      · rintro ⟨x, s1, h1, he, h2⟩
        exact ⟨x, s1, h1, by rw [if_pos he]; exact h2⟩
    have hloop : ∀ st' x', contLoop par (fuel + 1) st m s = .ok ((st', x'), s') ↔
        ∃ x s1, step par m s = .ok (x, s1) ∧
          (if x.disc = true then pure (⟨st.hs ++ [emission m n0 x], st.ts, jm⟩, x)
            else contLoop par fuel ⟨st.hs ++ [emission m n0 x], st.ts, jm⟩ x : Rnd ℝ (St ℝ × MCPoint ℝ)) s1 = .ok ((st', x'), s') := by
      intro st' x'
      rw [contLoop, Rnd.bind_ok]
      constructor
      · rintro ⟨⟨st1, x⟩, s1, h1, h2⟩
        rw [hsim s hs] at h1
        obtain ⟨x2, s2, h3, h4⟩ := Rnd.bind_ok.mp h1
        obtain ⟨h5, rfl⟩ := Rnd.pure_ok.mp h4
        cases h5
        exact ⟨x, s2, h3, h2⟩
      · rintro ⟨x, s1, h1, h2⟩
        refine ⟨(⟨st.hs ++ [emission m n0 x], st.ts, jm⟩, x), s1, ?_, h2⟩
        rw [hsim s hs, Rnd.bind_of_ok h1]
        rfl
    rw [hwalk]
    constructor
    · rintro ⟨st', x', h1, ⟨ys, h2, h3⟩, h4⟩
      obtain ⟨x, s1, h5, h6⟩ := (hloop st' x').mp h1
      refine ⟨x, s1, h5, ?_⟩
      by_cases hxd : x.disc = true
      · rw [if_pos hxd] at h6
        obtain ⟨h7, rfl⟩ := Rnd.pure_ok.mp h6
        rw [← (Prod.mk.inj h7).1] at h2
        rw [← (Prod.mk.inj h7).2] at h4
        simp only [List.append_cancel_left_eq] at h2
        subst h2
        cases h3 with
        | cons g1 g2 =>
          cases g2
          refine ⟨(emission_emits hpass.parent c x).mp g1, ?_⟩
          rw [walk, if_pos ⟨hxd, h4⟩]
          rfl
      · rw [if_neg hxd] at h6
        obtain ⟨y, ys', h7⟩ := loop_hist h6
        rw [h7, List.append_assoc, List.append_cancel_left_eq] at h2
        subst h2
        cases h3 with
        | cons g1 g2 =>
          refine ⟨(emission_emits hpass.parent c x).mp g1, ?_⟩
          refine (ih fuel _ x s1 s' (by omega) ?_ (by simpa using hxd) (hnext x s1 h5) (hsuf x s1 h5)).mp ⟨st', x', h6, ⟨_, h7, g2⟩, h4⟩
          simp only [List.length_append, List.length_cons, List.length_nil]
          omega
    · rintro ⟨x, s1, h1, he, h2⟩
      have hem := (emission_emits hpass.parent c x).mpr he
      by_cases hxd : x.disc = true
      · cases cs with
        | nil =>
          rw [walk] at h2
          by_cases hq : x.disc = true ∧ Q x.n x.k
          · rw [if_pos hq] at h2
            refine ⟨⟨st.hs ++ [emission m n0 x], st.ts, jm⟩, x, (hloop _ _).mpr ⟨x, s1, h1, ?_⟩, ⟨_, rfl, .cons hem .nil⟩, hq.2⟩
            rw [if_pos hxd]
            cases h2
            rfl
          · rw [if_neg hq] at h2
            cases h2
        | cons c' cs' =>
          rw [walk, if_pos hxd] at h2
          cases h2
      · obtain ⟨st', x', h3, ⟨ys, h4, h5⟩, h6⟩ := (ih fuel ⟨st.hs ++ [emission m n0 x], st.ts, jm⟩ x s1 s' (by omega)
          (by simp only [List.length_append, List.length_cons, List.length_nil]; omega) (by simpa using hxd) (hnext x s1 h1) (hsuf x s1 h1)).mpr h2
        refine ⟨st', x', (hloop _ _).mpr ⟨x, s1, h1, by rw [if_neg hxd]; exact h3⟩, ⟨emission m n0 x :: ys, by rw [h4]; simp, .cons hem h5⟩, h6⟩

/-- Law of the particles of a whole continuum decay. -/
theorem loop_law (hp : ∀ n, PhysMeasurable (par.phys n)) (Q : Nat → Nat → Prop)
    (H : ∀ x, Reached par m x → x.disc = false → ∃ n0 n1 m0 m1, Pass par blank x n0 n1 m0 m1) (cs : List (Pid × Set ℝ))
    (hc : ∀ c ∈ cs, MeasurableSet c.2) (fuel : Nat) (st : St ℝ) (hf : cs.length ≤ fuel) (hcap : st.hs.length + cs.length < par.cap)
    (hd : m.disc = false) :
    stream {ω | ∃ k st' x, contLoop par fuel st m (pre ω k) = .ok ((st', x), []) ∧
      (∃ ys, st'.hs = st.hs ++ ys ∧ Matches cs ys) ∧ Q x.n x.k} = patternValue par Q cs m := by
  rw [← walk_value hp Q H cs hc m (.inr .start)]
  unfold probIn
  apply stream_congr
  intro ω hω
  simp only [Set.mem_ofPred_eq, Set.mem_univ, and_true]
  have hin : ∀ k, ∀ r ∈ pre ω k, 0 < r ∧ r < 1 := by
    intro k r hr
    obtain ⟨i, -, rfl⟩ := List.mem_map.mp hr
    exact hω i
  constructor
  · rintro ⟨k, h⟩
    exact ⟨k, (), (loop_walk Q H cs fuel st m (pre ω k) [] hf hcap hd .start (hin k)).mp h⟩
  · rintro ⟨k, _, h⟩
    exact ⟨k, (loop_walk Q H cs fuel st m (pre ω k) [] hf hcap hd .start (hin k)).mpr h⟩

end CGMF.HF

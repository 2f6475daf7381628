import Verif.Proofs.Decay

/-! # Termination and absence of undefined behaviour -/

set_option linter.unusedSectionVars false

namespace CGMF.MC

open CGMF.Grid CGMF.HF

variable {K : Type} [Field K] [LinearOrder K] [IsStrictOrderedRing K]

/-! ## Numbers of random numbers -/

/-- `x` asks for at most `n` random numbers. -/
def Needs {α : Type} (n : Nat) (x : Rnd K α) : Prop :=
  ∀ s : List K, (n ≤ s.length → x s ≠ .more) ∧
    ∀ a s', x s = .ok (a, s') → s.length ≤ s'.length + n ∧ s' <:+ s

theorem Needs.pure {α : Type} (a : α) (n : Nat) : Needs n (pure a : Rnd K α) := by
  intro s
  refine ⟨fun _ => by simp, ?_⟩
  intro b s' h
  obtain ⟨-, rfl⟩ := Rnd.pure_ok.mp h
  exact ⟨by omega, List.suffix_refl _⟩

theorem Needs.undef {α : Type} (n : Nat) : Needs n (Rnd.undef : Rnd K α) := by
  intro s; simp

theorem Needs.stop {α : Type} (n : Nat) : Needs n (Rnd.stop : Rnd K α) := by
  intro s; simp

theorem Needs.get {α : Type} (o : Option α) (n : Nat) : Needs n (Rnd.get o : Rnd K α) := by
  intro s
  refine ⟨fun _ => by cases o <;> simp [Rnd.get], ?_⟩
  intro b s' h
  obtain ⟨-, rfl⟩ := Rnd.get_ok.mp h
  exact ⟨by omega, List.suffix_refl _⟩

theorem Needs.lift {α : Type} (o : Res α) (n : Nat) : Needs n (Rnd.lift o : Rnd K α) := by
  intro s
  refine ⟨fun _ => by cases o <;> simp [Rnd.lift], ?_⟩
  intro b s' h
  obtain ⟨-, rfl⟩ := Rnd.lift_ok.mp h
  exact ⟨by omega, List.suffix_refl _⟩

theorem Needs.draw : Needs 1 (Rnd.draw : Rnd K K) := by
  intro s
  refine ⟨fun h => ?_, ?_⟩
  · cases s with
    | nil => simp at h
    | cons => simp
  · intro b s' h
    rw [Rnd.draw_ok] at h
    subst h
    exact ⟨by simp, List.suffix_cons _ _⟩

theorem Needs.mono {α : Type} {x : Rnd K α} {n m : Nat} (h : Needs n x) (hm : n ≤ m) : Needs m x := by
  intro s
  refine ⟨fun hs => (h s).1 (by omega), fun a s' e => ?_⟩
  have := (h s).2 a s' e
  exact ⟨by omega, this.2⟩

theorem Needs.bind {α β : Type} {x : Rnd K α} {f : α → Rnd K β} {n m : Nat} (hx : Needs n x)
    (hf : ∀ a, (∃ s s', x s = .ok (a, s')) → Needs m (f a)) : Needs (n + m) (x >>= f) := by
  intro s
  constructor
  · intro hs
    rw [Rnd.bind_run]
    cases h : x s with
    | ok p =>
      obtain ⟨a, s1⟩ := p
      have := (hx s).2 a s1 h
      exact (hf a ⟨s, s1, h⟩ s1).1 (by omega)
    | more => exact absurd h ((hx s).1 (by omega))
    | _ => simp
  · intro b s' h
    obtain ⟨a, s1, h1, h2⟩ := Rnd.bind_ok.mp h
    have e1 := (hx s).2 a s1 h1
    have e2 := (hf a ⟨s, s1, h1⟩ s1).2 b s' h2
    exact ⟨by omega, e2.2.trans e1.2⟩

theorem Needs.ite {α : Type} {c : Prop} [Decidable c] {x y : Rnd K α} {n : Nat} (hx : Needs n x)
    (hy : Needs n y) : Needs n (if c then x else y) := by
  split
  · exact hx
  · exact hy

theorem pickE1_needs (p j : Int) : ∀ (ls : List (Level K)) (i : Nat) (xpr : K) (best : Option Nat),
    Needs ls.length (pickE1 p j ls i xpr best) := by
  intro ls
  induction ls with
  | nil => intro i x b; exact Needs.pure _ _
  | cons l ls ih =>
    intro i x b
    rw [pickE1]
    split
    · rw [List.length_cons, Nat.add_comm]
      refine Needs.draw.bind ?_
      intro r _
      split <;> exact ih _ _ _
    · exact (ih _ _ _).mono (by simp)

theorem forced_needs (ls : List (Level K)) (p j : Int) : Needs ls.length (forced ls p j) := by
  unfold forced
  refine ((pickE1_needs (K := K) p j ls 0 (-1) none).bind (m := 0) ?_).mono (by omega)
  intro b _
  cases b with
  | some i => exact Needs.pure _ _
  | none => exact Needs.get _ _

theorem bypass_needs (ls : List (Level K)) (p j : Int) : Needs ls.length (bypass ls p j) := by
  unfold bypass
  refine ((pickE1_needs (K := K) p j ls 0 (-1) none).bind (m := 0) ?_).mono (by omega)
  intro b _
  cases b with
  | some i => exact Needs.pure _ _
  | none => exact Needs.get _ _

theorem compoundDecay_needs (maxJ : Nat) (w : K) (n0 n1 : Nuc K) (m0 m1 : Mesh K) (ph : Phys K)
    (p jdx jmax0 jmax1 : Int) :
    Needs n0.levels.length (compoundDecay maxJ w n0 n1 m0 m1 ph p jdx jmax0 jmax1) := by
  unfold compoundDecay
  exact Needs.ite ((bypass_needs _ _ _).bind (m := 0) (fun _ _ => Needs.pure _ _)) (Needs.pure _ _)

theorem findNext_needs (c0 : Nat) (n0 n1 : Nuc K) (m0 m1 : Mesh K) (pops : Pops K) (p j : Int) :
    Needs (1 + n0.levels.length) (findNext c0 n0 n1 m0 m1 pops p j) := by
  unfold findNext
  refine Needs.draw.bind ?_
  intro r _
  generalize firstReach r 0 (candidates n0 n1 m0 m1 pops) = o
  rcases o with _ | ⟨_ | _, c⟩
  · exact (forced_needs _ _ _).bind (m := 0) (fun _ _ => Needs.get _ _)
  · exact Needs.get _ _
  · exact Needs.get _ _

theorem perturb_needs (n : Nuc K) (m : Mesh K) (x : MCPoint K) : Needs 1 (perturb n m x) := by
  unfold perturb
  split
  · exact Needs.pure _ _
  · refine ((Needs.get _ 0).bind (m := 1) ?_).mono (by omega)
    intro top _
    exact Needs.draw.bind (m := 0) (fun _ _ => Needs.pure _ _)

theorem lowCut_needs (par : Par K) (n0 : Nuc K) (a x : MCPoint K) :
    Needs n0.levels.length (lowCut par n0 a x) := by
  unfold lowCut
  split
  · refine ((Needs.get _ 0).bind (m := n0.levels.length) ?_).mono (by omega)
    intro top _
    split
    · exact (forced_needs _ _ _).bind (m := 0) (fun _ _ => Needs.get _ _)
    · exact Needs.pure _ _
  · exact Needs.pure _ _

theorem daughter_needs (par : Par K) (n0 : Nuc K) (m0 : Mesh K) (e : K) :
    Needs 0 (daughter par n0 m0 e) := by
  unfold daughter
  split
  · refine (Needs.get _ 0).bind (m := 0) ?_
    intro n1 _
    exact (Needs.lift _ 0).bind (m := 0) (fun _ _ => Needs.pure _ _)
  · exact Needs.pure _ _

theorem store_needs (par : Par K) (ic : Bool) (a b : MCPoint K) (st : St K) :
    Needs 0 (store par ic a b st) := by
  unfold store
  split
  · exact Needs.undef _
  · refine (Needs.get _ 0).bind (m := 0) ?_
    intro n1 _
    exact Needs.ite (Needs.stop _) (Needs.pure _ _)

theorem contStep_needs {par : Par K} {L : Nat} (hL : LevelsAtMost par.chain L) (st : St K)
    (m : MCPoint K) : Needs (3 * L + 2) (contStep par st m) := by
  unfold contStep
  refine ((Needs.get _ 0).bind (m := 3 * L + 2) ?_).mono (by omega)
  rintro n0 ⟨s, s', h⟩
  have hn := hL n0 (List.mem_of_getElem? (Rnd.get_ok.mp h).1)
  refine ((Needs.lift _ 0).bind (m := 3 * L + 2) ?_).mono (by omega)
  intro m0 _
  refine ((daughter_needs _ _ _ _).bind (m := 3 * L + 2) ?_).mono (by omega)
  intro d _
  split
  · exact Needs.undef _
  · refine (((compoundDecay_needs _ _ _ _ _ _ _ _ _ _ _).mono hn).bind (m := 2 * L + 2) ?_).mono (by omega)
    intro pops _
    refine (((findNext_needs _ _ _ _ _ _ _ _).mono (m := 1 + L) (by omega)).bind (m := L + 1) ?_).mono (by omega)
    intro x _
    refine ((perturb_needs _ _ _).bind (m := L) ?_).mono (by omega)
    intro x _
    refine (((lowCut_needs _ _ _ _).mono hn).bind (m := 0) ?_).mono (by omega)
    intro x _
    refine (store_needs _ _ _ _ _).bind (m := 0) (fun _ _ => Needs.pure _ _)

theorem contStep_grows {par : Par K} {st st' : St K} {m x : MCPoint K} {s s' : List K}
    (h : contStep par st m s = .ok ((st', x), s')) :
    st'.hs.length = st.hs.length + 1 ∧ st'.hs.length < par.cap ∧ st'.ts = st.ts := by
  obtain ⟨n0, m0, d, pops, x1, x2, jm, s1, s2, s3, s4, s5, -, -, -, -, -, -, -, -, -, -, h8⟩ := contStep_ok h
  obtain ⟨-, hl, n0, -, rfl⟩ := store_ok h8
  simpa using hl

theorem contLoop_needs {par : Par K} {L : Nat} (hL : LevelsAtMost par.chain L) :
    ∀ (fuel : Nat) (st : St K) (m : MCPoint K), st.hs.length < par.cap →
      par.cap ≤ fuel + st.hs.length → Needs (fuel * (3 * L + 2)) (contLoop par fuel st m) := by
  intro fuel
  induction fuel with
  | zero => intro st m h1 h2; omega
  | succ f ih =>
    intro st m h1 h2
    rw [contLoop, Nat.succ_mul, Nat.add_comm]
    refine (contStep_needs hL st m).bind ?_
    rintro ⟨st1, x⟩ ⟨s, s', h⟩
    have := contStep_grows h
    simp only
    split
    · exact Needs.pure _ _
    · exact ih _ _ this.2.1 (by omega)

/-- The bound on the passes of the continuum loop is never met: any larger bound gives the same
result, so the bounded loop is the loop of the code. -/
theorem contLoop_fuel {par : Par K} : ∀ (f1 f2 : Nat) (st : St K) (m : MCPoint K) (s : List K),
    st.hs.length < par.cap → par.cap ≤ f1 + st.hs.length → par.cap ≤ f2 + st.hs.length →
    contLoop par f1 st m s = contLoop par f2 st m s := by
  intro f1
  induction f1 with
  | zero => intro f2 st m s h1 h2; omega
  | succ f ih =>
    intro f2 st m s h1 h2 h3
    cases f2 with
    | zero => omega
    | succ g =>
      rw [contLoop, contLoop, Rnd.bind_run, Rnd.bind_run]
      cases h : contStep par st m s with
      | ok r =>
        obtain ⟨⟨st1, x⟩, s1⟩ := r
        have hg := contStep_grows h
        by_cases hd : x.disc = true
        · simp only [hd, if_true]
        · simp only [if_neg hd]
          exact ih _ _ _ _ hg.2.1 (by omega) (by omega)
      | _ => rfl

theorem stay_needs (par : Par K) (l : Level K) (t : K) : Needs 1 (stay par l t) := by
  unfold stay
  split
  · exact Needs.draw.bind (m := 0) (fun _ _ => Needs.pure _ _)
  · exact Needs.pure _ _

/-- The bound on the passes of the discrete cascade is never met. -/
theorem cascadeLoop_fuel {par : Par K} {c : Nat} {levels : List (Level K)} :
    ∀ (f1 f2 i : Nat) (t : K) (st : St K) (s : List K), s.length < f1 → s.length < f2 →
    cascadeLoop par c levels f1 i t st s = cascadeLoop par c levels f2 i t st s := by
  intro f1
  induction f1 with
  | zero => intro f2 i t st s h; omega
  | succ f ih =>
    intro f2 i t st s h1 h2
    cases f2 with
    | zero => omega
    | succ g =>
      rw [cascadeLoop, cascadeLoop]
      split
      · rfl
      · rw [Rnd.bind_run, Rnd.bind_run]
        cases hl : levels[i]? with
        | none => rfl
        | some l =>
          simp only [Rnd.get]
          rw [Rnd.bind_run, Rnd.bind_run]
          cases hs : stay par l t s with
          | ok r =>
            obtain ⟨t', s1⟩ := r
            have hs1 := ((stay_needs par l t s).2 _ _ hs).2.length_le
            simp only
            split
            · rfl
            · rw [Rnd.bind_run, Rnd.bind_run]
              cases s1 with
              | nil => rfl
              | cons r s2 =>
                simp only [Rnd.draw_cons]
                simp only [List.length_cons] at hs1
                cases hb : pickBranch r l.branches with
                | none => exact ih _ _ _ _ _ (by omega) (by omega)
                | some b =>
                  simp only
                  rw [Rnd.bind_run, Rnd.bind_run]
                  cases s2 with
                  | nil => rfl
                  | cons x s3 =>
                    simp only [Rnd.draw_cons]
                    simp only [List.length_cons] at hs1
                    rw [Rnd.bind_run, Rnd.bind_run]
                    cases hw : writeAt st.ts (st.hs.length : Int) t' with
                    | ok ts =>
                      simp only [Rnd.lift]
                      rw [Rnd.bind_run, Rnd.bind_run]
                      cases hl1 : levels[b.fstate]? with
                      | none => rfl
                      | some l1 =>
                        simp only [Rnd.get]
                        rw [Rnd.bind_run, Rnd.bind_run]
                        cases hst : store par (decide (b.gratio < x)) (levelPoint c i l)
                          (levelPoint c b.fstate l1) { st with ts := ts } s3 with
                        | ok q =>
                          obtain ⟨st1, s4⟩ := q
                          have := (store_ok hst).1
                          subst this
                          exact ih _ _ _ _ _ (by omega) (by omega)
                        | _ => rfl
                    | _ => rfl
          | _ => rfl

theorem pickBranch_some {l : List (Branch K)} {r : K} (h1 : r ≤ 1) (h : 1 ≤ (l.map (·.branch)).sum) :
    ∃ b ∈ l, pickBranch r l = some b := by
  unfold pickBranch
  cases hf : firstReach r 0 (l.map fun b => (b, b.branch)) with
  | none =>
    exfalso
    by_cases hl : l = []
    · subst hl
      norm_num at h
    · have := firstReach_none hf (by simpa using hl)
      rw [List.map_map] at this
      have e : (l.map (Prod.snd ∘ fun b : Branch K => (b, b.branch))) = l.map (·.branch) := rfl
      rw [e] at this
      linarith
  | some b =>
    obtain ⟨x, hx⟩ := firstReach_mem hf
    obtain ⟨b', hb, e⟩ := List.mem_map.mp hx
    cases e
    exact ⟨_, hb, rfl⟩

theorem cascadeLoop_needs {par : Par K} {c : Nat} {levels : List (Level K)} (hd : Decays levels) :
    ∀ (f i : Nat) (t : K) (st : St K) (s : List K), (∀ r ∈ s, r ≤ 1) → s.length < f →
      (i < levels.length → 3 * i ≤ s.length) →
      cascadeLoop par c levels f i t st s ≠ .more := by
  intro f
  induction f with
  | zero => intro i t st s _ h; omega
  | succ f ih =>
    intro i t st s hr h1 h2
    rw [cascadeLoop]
    split
    · simp
    · rename_i h0
      rw [Rnd.bind_run]
      cases hl : levels[i]? with
      | none => simp [Rnd.get]
      | some l =>
        have hi : i < levels.length := (List.getElem?_eq_some_iff.mp hl).1
        have h2 := h2 hi
        simp only [Rnd.get]
        rw [Rnd.bind_run]
        cases hs : stay par l t s with
        | ok r =>
          obtain ⟨t', s1⟩ := r
          have hn := (stay_needs par l t s).2 _ _ hs
          have hs1 := hn.2.length_le
          have hr1 : ∀ r ∈ s1, r ≤ 1 := fun r h => hr r (hn.2.subset h)
          simp only
          split
          · simp
          · rw [Rnd.bind_run]
            cases s1 with
            | nil => simp at hn; omega
            | cons r s2 =>
              simp only [Rnd.draw_cons]
              simp only [List.length_cons] at hs1 hn
              obtain ⟨d1, d2⟩ := hd i l h0 hl
              obtain ⟨b, hb, hpb⟩ := pickBranch_some (hr1 r (by simp)) d1
              rw [hpb]
              simp only
              rw [Rnd.bind_run]
              have := d2 b hb
              cases s2 with
              | nil => simp at hn; omega
              | cons x s3 =>
                simp only [Rnd.draw_cons]
                simp only [List.length_cons] at hs1 hn
                rw [Rnd.bind_run]
                cases hw : writeAt st.ts (st.hs.length : Int) t' with
                | ok ts =>
                  simp only [Rnd.lift]
                  rw [Rnd.bind_run]
                  cases hl1 : levels[b.fstate]? with
                  | none => simp [Rnd.get]
                  | some l1 =>
                    simp only [Rnd.get]
                    rw [Rnd.bind_run]
                    cases hst : store par (decide (b.gratio < x)) (levelPoint c i l)
                      (levelPoint c b.fstate l1) { st with ts := ts } s3 with
                    | ok q =>
                      obtain ⟨st1, s4⟩ := q
                      have := (store_ok hst).1
                      subst this
                      exact ih _ _ _ _ (fun r h => hr1 r (by simp [h])) (by omega) (by intro _; omega)
                    | more => exact absurd hst ((store_needs _ _ _ _ _ _).1 (by omega))
                    | _ => simp
                | _ => simp [Rnd.lift]
        | more => exact absurd hs ((stay_needs par l t s).1 (by omega))
        | _ => simp

theorem cascade_needs {par : Par K} {L : Nat} (hL : LevelsAtMost par.chain L)
    (hd : ∀ n ∈ par.chain, Decays n.levels) (c i : Nat) (st : St K) (s : List K)
    (hr : ∀ r ∈ s, r ≤ 1) (hs : 3 * L ≤ s.length) : cascade par c i st s ≠ .more := by
  unfold cascade
  cases hc : par.chain[c]? with
  | none => simp
  | some n =>
    have hm := List.mem_of_getElem? hc
    have := hL n hm
    exact cascadeLoop_needs (hd n hm) _ _ _ _ _ hr (by omega) (fun h => by omega)

theorem marker_needs (par : Par K) (c f : Nat) (st : St K) : Needs 0 (marker par c f st) := by
  unfold marker
  refine (Needs.get _ 0).bind (m := 0) ?_
  intro n _
  refine (Needs.get _ 0).bind (m := 0) ?_
  intro l _
  split
  · exact Needs.undef _
  · exact Needs.pure _ _

theorem finish_needs {par : Par K} {L : Nat} (hL : LevelsAtMost par.chain L)
    (hd : ∀ n ∈ par.chain, Decays n.levels) (x : MCPoint K) (st : St K) (s : List K)
    (hr : ∀ r ∈ s, r ≤ 1) (hs : 3 * L ≤ s.length) : finish par x st s ≠ .more := by
  unfold finish
  split
  · exact cascade_needs hL hd _ _ _ _ hr hs
  · simp

theorem historyLoop_needs {par : Par K} {L : Nat} (hcap : 0 < par.cap) (hL : LevelsAtMost par.chain L)
    (hd : ∀ n ∈ par.chain, Decays n.levels) (st : St K) (m : MCPoint K) (s : List K)
    (hr : ∀ r ∈ s, r ≤ 1) (hs : par.cap * (3 * L + 2) + 3 * L ≤ s.length) :
    historyLoop par st m s ≠ .more := by
  unfold historyLoop
  rw [Rnd.bind_run]
  have hn := contLoop_needs hL par.cap { st with hs := [] } m (by simpa using hcap) (by simp)
  cases h1 : contLoop par par.cap { st with hs := [] } m s with
  | ok r =>
    obtain ⟨⟨st1, x⟩, s1⟩ := r
    have hx := (hn s).2 _ _ h1
    simp only
    rw [Rnd.bind_run]
    cases h2 : finish par x st1 s1 with
    | ok r => exact (marker_needs _ _ _ _ _).1 (by omega)
    | more => exact absurd h2 (finish_needs hL hd _ _ _ (fun r h => hr r (hx.2.subset h)) (by omega))
    | _ => simp
  | more => exact absurd h1 ((hn s).1 (by omega))
  | _ => simp

theorem decay_needs {par : Par K} {L : Nat} (hcap : 0 < par.cap) (hL : LevelsAtMost par.chain L)
    (hd : ∀ n ∈ par.chain, Decays n.levels) (st : St K) (E : K) (jint p0 : Int) (s : List K)
    (hr : ∀ r ∈ s, r ≤ 1) (hs : par.cap * (3 * L + 2) + 3 * L ≤ s.length) :
    decay par st E jint p0 s ≠ .more := by
  unfold decay
  rw [Rnd.bind_run]
  cases hc : par.chain[0]? with
  | none => simp [Rnd.get]
  | some n0 =>
    simp only [Rnd.get]
    rw [Rnd.bind_run]
    cases hm : setup par.w par.nbin (elmax n0.levels) E with
    | ok m0 =>
      simp only [Rnd.lift]
      split
      · unfold discStart
        rw [Rnd.bind_run]
        cases h1 : cascade par 0 (startLevel n0 m0 E) { st with hs := [] } s with
        | ok r => exact (marker_needs _ _ _ _ _).1 (by omega)
        | more => exact absurd h1 (cascade_needs hL hd _ _ _ _ hr (by omega))
        | _ => simp
      · unfold contStart
        generalize fixedStart (popSingle (K := K) par.maxJ jint p0) 0 = o
        cases o with
        | none => simp
        | some pj =>
          exact historyLoop_needs hcap hL hd _ _ _ hr hs
    | _ => simp [Rnd.lift]

theorem stay_total (par : Par K) (l : Level K) (t : K) (s : List K) :
    (∃ t' s', stay par l t s = .ok (t', s')) ∨ stay par l t s = .more := by
  unfold stay
  split
  · cases s with
    | nil => exact Or.inr rfl
    | cons r s => exact Or.inl ⟨_, s, rfl⟩
  · exact Or.inl ⟨t, s, rfl⟩

/-- A level without branches is never left: no supply of random numbers is large enough. -/
theorem cascadeLoop_dead_end {par : Par K} {c i : Nat} {levels : List (Level K)} {l : Level K}
    (hi : i ≠ 0) (hl : levels[i]? = some l) (hb : l.branches = []) (hw : ¬ 0 < par.window) :
    ∀ (f : Nat) (t : K) (st : St K) (s : List K), cascadeLoop par c levels f i t st s = .more := by
  intro f
  induction f with
  | zero => intro t st s; rfl
  | succ f ih =>
    intro t st s
    rw [cascadeLoop, if_neg hi, Rnd.bind_run, hl]
    simp only [Rnd.get]
    rw [Rnd.bind_run]
    rcases stay_total par l t s with ⟨t', s', h⟩ | h
    · rw [h]
      simp only
      rw [if_neg (fun h => hw h.1), Rnd.bind_run]
      cases s' with
      | nil => rfl
      | cons r2 s =>
        simp only [Rnd.draw_cons, hb, pickBranch, List.map_nil, firstReach]
        exact ih _ _ _
    · rw [h]

end CGMF.MC

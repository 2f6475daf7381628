import Verif.Spec.Spectrum
import Verif.Proofs.SelectGen
import Verif.Proofs.KernelMore
import Verif.Props.LawStep

/-! # Law of one pass of the continuum loop -/

namespace CGMF.HF

open MeasureTheory CGMF.Law CGMF.MC CGMF.Grid CGMF.Props

/-! ## Measurability of the forced transition -/

/-- All sets are measurable. -/
local instance optMeasurable : MeasurableSpace (Option Nat) := ⊤

theorem jm_pick (p j : Int) : ∀ (ls : List (Level ℝ)) (i : Nat) (best : Option Nat),
    JM fun x : ℝ => pickE1 p j ls i x best := by
  intro ls
  induction ls with
  | nil => intro i best; exact JM.pure measurable_const
  | cons l ls ih =>
    intro i best
    simp only [pickE1]
    split
    · refine JM.bind (f := fun _ : ℝ => (Rnd.draw : Rnd ℝ ℝ))
        (g := fun y : ℝ × ℝ => if y.1 < y.2 then pickE1 p j ls (i + 1) y.2 (some i) else pickE1 p j ls (i + 1) y.1 best)
        (fun _ => CGMF.Isotropy.local_draw) JM.draw ?_
      exact JM.ite (measurableSet_lt measurable_fst measurable_snd) ((ih _ _).comp measurable_snd) ((ih _ _).comp measurable_fst)
    · exact ih _ _

theorem meas_get {α : Type} (o : Option α) : Meas (Rnd.get o : Rnd ℝ α) := by
  intro a n
  cases o with
  | none =>
    have : At (Rnd.get none : Rnd ℝ α) a n = ∅ := by
      ext ω
      simp only [At, Set.mem_ofPred_eq, Set.mem_empty_iff_false, iff_false]
      intro h
      cases (Rnd.get_ok.mp h).1
    rw [this]
    exact MeasurableSet.empty
  | some b =>
    have : At (Rnd.get (some b) : Rnd ℝ α) a n = {_ω | b = a ∧ n = 0} := by
      ext ω
      simp only [At, Set.mem_ofPred_eq]
      rw [Rnd.get_ok]
      constructor
      · rintro ⟨h1, h2⟩
        refine ⟨Option.some.inj h1, ?_⟩
        have := congrArg List.length h2
        simp only [pre_length, List.length_nil] at this
        omega
      · rintro ⟨rfl, rfl⟩
        exact ⟨rfl, rfl⟩
    rw [this]
    exact MeasurableSet.const _

theorem meas_forced (levels : List (Level ℝ)) (p j : Int) : Meas (forced levels p j) := by
  unfold forced
  refine meas_bind (local_pick _ _ _ _ _ _) ?_ ?_
  · intro a n
    have := (jm_pick p j levels 0 none).fix (-1) n {a} trivial
    simpa [outAt_eq] using this
  · intro b
    cases b with
    | some i => exact meas_pure _
    | none => exact meas_get _

/-! ## The pass after the selection -/

/-- What follows the selection of the state `a`. -/
noncomputable def post (par : Par ℝ) (m : MCPoint ℝ) (n0 n1 : Nuc ℝ) (m0 m1 : Mesh ℝ) (a : Bool × Cell) : Rnd ℝ (MCPoint ℝ) := do
  let x ← Rnd.get (if a.1 then cellPoint n0.next n1 m1 a.2 else cellPoint m.n n0 m0 a.2)
  let x ← perturb (if a.1 then n1 else n0) (if a.1 then m1 else m0) x
  lowCut par n0 m x

/-- The entry a pass adds to the history. -/
noncomputable def emission (m : MCPoint ℝ) (n0 : Nuc ℝ) (x : MCPoint ℝ) : Hist ℝ :=
  if m.n = x.n then ⟨.gamma, m.e - x.e, m⟩ else ⟨.neutron, m.e - x.e - n0.sn, m⟩

variable {par : Par ℝ} {st : St ℝ} {m : MCPoint ℝ} {n0 n1 : Nuc ℝ} {m0 m1 : Mesh ℝ}

theorem compound_closed (hs : n0.status = false) (maxJ : Nat) (w : ℝ) (a1 b1 : Nuc ℝ) (a2 b2 : Mesh ℝ) (ph : Phys ℝ) (p j jm0 jm1 : Int) :
    compoundDecay maxJ w n0 a1 m0 a2 ph p j jm0 jm1 = compoundDecay maxJ w n0 b1 m0 b2 ph p j jm0 jm1 := by
  unfold compoundDecay nOpen
  simp [hs]

theorem pass_run (h : Pass par st m n0 n1 m0 m1) : ∃ pops : Pops ℝ, ∃ jm : Nat → Int,
    compoundDecay par.maxJ par.w n0 n1 m0 m1 (par.phys m.n m.e) m.p m.j (st.jmax m.n) (st.jmax n0.next) = pure pops ∧
    contStep par st m [] = .more ∧
    ∀ ω, Inside ω → ∃ a, firstReach (ω 0) 0 (candidates n0 n1 m0 m1 pops) = some a ∧
      (∃ x, (if a.1 then cellPoint n0.next n1 m1 a.2 else cellPoint m.n n0 m0 a.2) = some x) ∧
      ∀ s, contStep par st m (ω 0 :: s) =
        (post par m n0 n1 m0 m1 a >>= fun x => pure (⟨st.hs ++ [emission m n0 x], st.ts, jm⟩, x) : Rnd ℝ (St ℝ × MCPoint ℝ)) s := by
  obtain ⟨pops, hp⟩ := compoundDecay_pure h.spins (st.jmax m.n) (st.jmax n0.next) h.spin.1 h.fits h.width_ne
  have h' : compoundDecay par.maxJ par.w n0 n1 m0 m1 (par.phys m.n m.e) m.p m.j (st.jmax m.n) (st.jmax n0.next) [] =
      .ok (pops, []) := by rw [hp]; rfl
  have hsum := candidates_sum h'
  refine ⟨pops, fun c => if c = m.n then pops.jmax0 else if n0.status ∧ c = n0.next then pops.jmax1 else st.jmax c, hp, ?_⟩
  obtain ⟨d, hd, hd1, hd2⟩ : ∃ d : Nuc ℝ × Mesh ℝ, (∀ s, MC.daughter par n0 m0 m.e s = .ok (d, s)) ∧ (n0.status = true → d = (n1, m1)) ∧
      (n0.status = false → d = (n0, m0)) := by
    unfold MC.daughter
    by_cases hs : n0.status = true
    · obtain ⟨g1, g2⟩ := h.daughter hs
      refine ⟨(n1, m1), fun s => ?_, fun _ => rfl, fun h => by rw [hs] at h; cases h⟩
      rw [if_pos hs, Rnd.bind_of_ok (Rnd.get_ok.mpr ⟨g1, rfl⟩), Rnd.bind_of_ok (Rnd.lift_ok.mpr ⟨g2, rfl⟩)]
      rfl
    · refine ⟨(n0, m0), fun s => ?_, fun h => absurd h hs, fun _ => rfl⟩
      rw [if_neg hs]
      rfl
  have hcd : ∀ s, compoundDecay par.maxJ par.w n0 d.1 m0 d.2 (par.phys m.n m.e) m.p m.j (st.jmax m.n) (st.jmax n0.next) s = .ok (pops, s) := by
    intro s
    cases hs : n0.status with
    | true => rw [hd1 hs, hp]; rfl
    | false => rw [compound_closed hs _ _ d.1 n1 d.2 m1, hp]; rfl
  have hnil : contStep par st m [] = .more := by
    unfold contStep
    rw [Rnd.bind_of_ok (Rnd.get_ok.mpr ⟨h.parent, rfl⟩), Rnd.bind_of_ok (Rnd.lift_ok.mpr ⟨h.grid0, rfl⟩), Rnd.bind_of_ok (hd _),
      if_neg (by have := h.spin; omega), Rnd.bind_of_ok (hcd _)]
    rfl
  refine ⟨hnil, ?_⟩
  intro ω hω
  obtain ⟨⟨b, c⟩, hc⟩ := reach_total (candidates n0 n1 m0 m1 pops) 0 (ω 0) (by
    rw [zero_add]
    exact le_of_lt (lt_of_lt_of_eq (hω 0).2 hsum.symm)) (hω 0).1
  obtain ⟨l1, y, l2, e, -, -⟩ := firstReach_some hc
  have hm : ((b, c), y) ∈ candidates n0 n1 m0 m1 pops := by rw [e]; simp
  have hx : ∃ x, (if b then cellPoint n0.next n1 m1 c else cellPoint m.n n0 m0 c) = some x := by
    rcases candidates_cell hm with ⟨rfl, h⟩ | ⟨rfl, h⟩
    · exact cellPoint_some h
    · exact cellPoint_some h
  have hb : n0.status = false → b = false := by
    intro hs
    unfold candidates at hm
    rw [hs] at hm
    simp only [Bool.false_eq_true, if_false, List.append_nil] at hm
    obtain ⟨_, _, h3⟩ := List.mem_map.mp hm
    cases h3
    rfl
  obtain ⟨x, hx⟩ := hx
  have hxn : x.n = if b then n0.next else m.n := by
    have h2 := denotes_of hx
    cases b <;> cases c with
    | cont k idx even => rw [show x = _ from h2]; rfl
    | disc i => obtain ⟨l, _, h5⟩ := h2; rw [h5]; rfl
  refine ⟨(b, c), hc, ⟨x, hx⟩, ?_⟩
  intro s
  have hcand : candidates n0 d.1 m0 d.2 pops = candidates n0 n1 m0 m1 pops := by
    cases hs : n0.status with
    | true => rw [hd1 hs]
    | false => unfold candidates; simp [hs]
  have hfn : ∀ s, findNext m.n n0 d.1 m0 d.2 pops m.p m.j (ω 0 :: s) = .ok (x, s) := by
    intro s
    unfold findNext
    rw [Rnd.bind_run, Rnd.draw_cons]
    simp only [hcand, hc]
    cases b
    · exact Rnd.get_ok.mpr ⟨hx, rfl⟩
    · cases hs : n0.status with
      | true => rw [hd1 hs]; exact Rnd.get_ok.mpr ⟨hx, rfl⟩
      | false => exact absurd (hb hs) (by simp)
  have hside : side m x (n0, m0) d = (if b then n1 else n0, if b then m1 else m0) := by
    unfold side
    rw [hxn]
    cases b
    · simp
    · simp only [if_true]
      rw [if_neg h.other]
      cases hs : n0.status with
      | true => exact hd1 hs
      | false => exact absurd (hb hs) (by simp)
  have hstore : ∀ (st' : St ℝ), st'.hs = st.hs → ∀ z s, store par false m z st' s = .ok (⟨st.hs ++ [emission m n0 z], st'.ts, st'.jmax⟩, s) := by
    intro st' e z s
    unfold store emission
    have g1 : ¬ par.cap ≤ st'.hs.length := by have := h.room; rw [e]; omega
    have g2 : ¬ st'.hs.length + 1 = par.cap := by have := h.room; rw [e]; omega
    simp only [g1, g2, if_false]
    rw [Rnd.bind_of_ok (Rnd.get_ok.mpr ⟨h.parent, rfl⟩)]
    rw [e]
    rfl
  unfold contStep
  rw [Rnd.bind_of_ok (Rnd.get_ok.mpr ⟨h.parent, rfl⟩), Rnd.bind_of_ok (Rnd.lift_ok.mpr ⟨h.grid0, rfl⟩), Rnd.bind_of_ok (hd _),
    if_neg (by have := h.spin; omega), Rnd.bind_of_ok (hcd _), Rnd.bind_of_ok (hfn _)]
  simp only [hside]
  have hpost : ∀ s, post par m n0 n1 m0 m1 (b, c) s =
      (perturb (if b then n1 else n0) (if b then m1 else m0) x >>= fun x => lowCut par n0 m x) s := by
    intro s
    unfold post
    rw [Rnd.bind_of_ok (Rnd.get_ok.mpr ⟨hx, rfl⟩)]
  rw [Rnd.bind_run, Rnd.bind_run, hpost, Rnd.bind_run]
  cases perturb (if b then n1 else n0) (if b then m1 else m0) x s with
  | ok r =>
    simp only []
    rw [Rnd.bind_run]
    cases lowCut par n0 m r.1 r.2 with
    | ok z =>
      simp only []
      rw [Rnd.bind_of_ok (hstore ⟨st.hs, st.ts, fun c => if c = m.n then pops.jmax0 else
        if n0.status = true ∧ c = n0.next then pops.jmax1 else st.jmax c⟩ rfl z.1 z.2)]
    | exit => rfl
    | ub => rfl
    | more => rfl
  | exit => rfl
  | ub => rfl
  | more => rfl

/-! ## The parts of `post` -/

/-- Energy of a continuum state moved by the number `r`. -/
noncomputable def moved (m : Mesh ℝ) (top : ℝ) (k : Nat) (r : ℝ) : ℝ := binBottom m top k + (binTop m k - binBottom m top k) * r

theorem perturb_run (n : Nuc ℝ) (mm : Mesh ℝ) {l : Level ℝ} (hl : n.levels.getLast? = some l) (c : Nat) (p j : Int) (k : Nat) (e : ℝ)
    (he : e = mm.exc k) (r : ℝ) (s : List ℝ) :
    perturb n mm ⟨c, p, j, k, e, false⟩ (r :: s) = .ok (⟨c, p, j, k, moved mm l.energy k r, false⟩, s) := by
  unfold perturb
  simp only [Bool.false_eq_true, if_false]
  rw [Rnd.bind_of_ok (Rnd.get_ok.mpr ⟨hl, rfl⟩), Rnd.bind_run, Rnd.draw_cons]
  simp only []
  have e1 : (if k = 0 then e else (mm.exc (k - 1) + mm.exc k) * (1 / 2)) = binTop mm k := by
    unfold binTop
    split
    · rename_i hk; rw [he, hk]
    · ring
  have e2 : (if (mm.exc (k + 1) + mm.exc k) * (1 / 2) < l.energy then l.energy else (mm.exc (k + 1) + mm.exc k) * (1 / 2)) =
      binBottom mm l.energy k := by
    unfold binBottom
    rw [show (mm.exc (k + 1) + mm.exc k) * (1 / 2) = (mm.exc (k + 1) + mm.exc k) / 2 by ring]
    split
    · rename_i hk; rw [max_eq_right hk.le]
    · rename_i hk; rw [max_eq_left (not_lt.mp hk)]
  rw [e1, e2]
  rfl

theorem perturb_nil (n : Nuc ℝ) (mm : Mesh ℝ) {l : Level ℝ} (hl : n.levels.getLast? = some l) (x : MCPoint ℝ) (hx : x.disc = false) :
    perturb n mm x [] = .more := by
  unfold perturb
  rw [if_neg (by rw [hx]; simp), Rnd.bind_of_ok (Rnd.get_ok.mpr ⟨hl, rfl⟩)]
  rfl

theorem post_disc (b : Bool) (i : Nat) {l : Level ℝ} (hl : (if b then n1 else n0).levels[i]? = some l) (h0 : n0.levels ≠ [])
    (s : List ℝ) : post par m n0 n1 m0 m1 (b, .disc i) s = .ok (levelPoint (if b then n0.next else m.n) i l, s) := by
  have hx : (if b then cellPoint n0.next n1 m1 (.disc i) else cellPoint m.n n0 m0 (.disc i)) =
      some (levelPoint (if b then n0.next else m.n) i l) := by
    cases b
    · simp only [Bool.false_eq_true, if_false] at hl ⊢
      simp [cellPoint, hl]
    · simp only [if_true] at hl ⊢
      simp [cellPoint, hl]
  unfold post
  rw [Rnd.bind_of_ok (Rnd.get_ok.mpr ⟨hx, rfl⟩)]
  have hp : ∀ n mm, perturb n mm (levelPoint (if b then n0.next else m.n) i l) s = .ok (levelPoint (if b then n0.next else m.n) i l, s) := by
    intro n mm
    unfold perturb
    rw [if_pos (show (levelPoint (if b = true then n0.next else m.n) i l).disc = true from rfl)]
    rfl
  rw [Rnd.bind_of_ok (hp _ _)]
  generalize hz : levelPoint (if b = true then n0.next else m.n) i l = z
  have hzd : z.disc = true := by rw [← hz]; rfl
  unfold lowCut
  by_cases hc : m.n = z.n
  · rw [if_pos hc, Rnd.bind_of_ok (Rnd.get_ok.mpr ⟨List.getLast?_eq_getLast_of_ne_nil h0, rfl⟩), if_neg (by simp [hzd])]
    rfl
  · rw [if_neg hc]
    rfl

theorem post_neutron (hne : m.n ≠ n0.next) (k : Nat) (idx : Int) (even : Bool) {l : Level ℝ} (hl : n1.levels.getLast? = some l) (r : ℝ)
    (s : List ℝ) : post par m n0 n1 m0 m1 (true, .cont k idx even) (r :: s) =
      .ok (⟨n0.next, if even then 1 else -1, idx, k, moved m1 l.energy k r, false⟩, s) := by
  unfold post
  simp only [if_true, cellPoint]
  rw [Rnd.bind_of_ok (Rnd.get_ok.mpr ⟨rfl, rfl⟩), Rnd.bind_of_ok (perturb_run n1 m1 hl _ _ _ _ _ rfl r s)]
  unfold lowCut
  rw [if_neg hne]
  rfl

theorem post_photon (k : Nat) (idx : Int) (even : Bool) {l : Level ℝ} (hl : n0.levels.getLast? = some l) (r : ℝ)
    (s : List ℝ) : post par m n0 n1 m0 m1 (false, .cont k idx even) (r :: s) =
      if moved m0 l.energy k r < l.energy + par.cut then
        (forced n0.levels m.p m.j >>= fun i => Rnd.get (n0.levels[i]?.map (levelPoint m.n i))) s
      else .ok (⟨m.n, if even then 1 else -1, idx, k, moved m0 l.energy k r, false⟩, s) := by
  unfold post
  simp only [Bool.false_eq_true, if_false, cellPoint]
  rw [Rnd.bind_of_ok (Rnd.get_ok.mpr ⟨rfl, rfl⟩), Rnd.bind_of_ok (perturb_run n0 m0 hl _ _ _ _ _ rfl r s)]
  unfold lowCut
  rw [if_pos rfl, Rnd.bind_of_ok (Rnd.get_ok.mpr ⟨hl, rfl⟩)]
  by_cases hc : moved m0 l.energy k r < l.energy + par.cut
  · rw [if_pos hc, if_pos ⟨hc, by simp⟩]
  · rw [if_neg hc, if_neg (fun h => hc h.1)]
    rfl

theorem post_nil (b : Bool) (k : Nat) (idx : Int) (even : Bool) (h0 : n0.levels ≠ []) (h1 : n1.levels ≠ []) :
    post par m n0 n1 m0 m1 (b, .cont k idx even) [] = .more := by
  unfold post
  cases b
  · simp only [Bool.false_eq_true, if_false, cellPoint]
    rw [Rnd.bind_of_ok (Rnd.get_ok.mpr ⟨rfl, rfl⟩), Rnd.bind_run,
      perturb_nil n0 m0 (List.getLast?_eq_getLast_of_ne_nil h0) _ rfl]
  · simp only [if_true, cellPoint]
    rw [Rnd.bind_of_ok (Rnd.get_ok.mpr ⟨rfl, rfl⟩), Rnd.bind_run,
      perturb_nil n1 m1 (List.getLast?_eq_getLast_of_ne_nil h1) _ rfl]

/-- The end points of a pass that satisfy `Q`, once `a` is selected. -/
def Ends (par : Par ℝ) (m : MCPoint ℝ) (n0 n1 : Nuc ℝ) (m0 m1 : Mesh ℝ) (Q : MCPoint ℝ → Prop) (a : Bool × Cell) : Set (ℕ → ℝ) :=
  {ω | ∃ k x, post par m n0 n1 m0 m1 a (pre ω k) = .ok (x, []) ∧ Q x}

/-- Ends of forced transitions. -/
def Forced (m : MCPoint ℝ) (n0 : Nuc ℝ) (Q : MCPoint ℝ → Prop) : Set (ℕ → ℝ) :=
  {ω | ∃ k i l, forced n0.levels m.p m.j (pre ω k) = .ok (i, []) ∧ n0.levels[i]? = some l ∧ Q (levelPoint m.n i l)}

theorem ends_disc (Q : MCPoint ℝ → Prop) (b : Bool) (i : Nat) {l : Level ℝ} (hl : (if b then n1 else n0).levels[i]? = some l)
    (h0 : n0.levels ≠ []) : Ends par m n0 n1 m0 m1 Q (b, .disc i) = {_ω | Q (levelPoint (if b then n0.next else m.n) i l)} := by
  ext ω
  simp only [Ends, Set.mem_ofPred_eq, post_disc b i hl h0]
  constructor
  · rintro ⟨k, x, h1, h2⟩
    rw [← (Prod.mk.inj (Out.ok.inj h1)).1] at h2
    exact h2
  · intro h
    exact ⟨0, _, rfl, h⟩

theorem ends_disc_none (Q : MCPoint ℝ → Prop) (b : Bool) (i : Nat) (hl : (if b then n1 else n0).levels[i]? = none) :
    Ends par m n0 n1 m0 m1 Q (b, .disc i) = ∅ := by
  ext ω
  simp only [Ends, Set.mem_ofPred_eq, Set.mem_empty_iff_false, iff_false]
  rintro ⟨k, x, h1, _⟩
  unfold post at h1
  obtain ⟨y, _, h2, _⟩ := Rnd.bind_ok.mp h1
  have := (Rnd.get_ok.mp h2).1
  cases b
  · simp only [Bool.false_eq_true, if_false] at hl this
    simp [cellPoint, hl] at this
  · simp only [if_true] at hl this
    simp [cellPoint, hl] at this

theorem ends_neutron (Q : MCPoint ℝ → Prop) (hne : m.n ≠ n0.next) (k : Nat) (idx : Int) (even : Bool) {l : Level ℝ}
    (hl : n1.levels.getLast? = some l) (h0 : n0.levels ≠ []) : Ends par m n0 n1 m0 m1 Q (true, .cont k idx even) =
      {ω | Q ⟨n0.next, if even then 1 else -1, idx, k, moved m1 l.energy k (ω 0), false⟩} := by
  have h1 : n1.levels ≠ [] := by rintro h; rw [h] at hl; cases hl
  ext ω
  simp only [Ends, Set.mem_ofPred_eq]
  constructor
  · rintro ⟨n, x, g1, g2⟩
    cases n with
    | zero => rw [pre_zero, post_nil true k idx even h0 h1] at g1; cases g1
    | succ n =>
      rw [pre_succ, post_neutron hne k idx even hl] at g1
      rw [← (Prod.mk.inj (Out.ok.inj g1)).1] at g2
      exact g2
  · intro h
    exact ⟨1, _, by rw [pre_succ, post_neutron hne k idx even hl]; rfl, h⟩

theorem ends_photon (Q : MCPoint ℝ → Prop) (k : Nat) (idx : Int) (even : Bool) {l : Level ℝ}
    (hl : n0.levels.getLast? = some l) (h1 : n1.levels ≠ []) : Ends par m n0 n1 m0 m1 Q (false, .cont k idx even) =
      ({ω | moved m0 l.energy k (ω 0) < l.energy + par.cut} ∩ shift 1 ⁻¹' Forced m n0 Q) ∪
      {ω | ¬ moved m0 l.energy k (ω 0) < l.energy + par.cut ∧
        Q ⟨m.n, if even then 1 else -1, idx, k, moved m0 l.energy k (ω 0), false⟩} := by
  have h0 : n0.levels ≠ [] := by rintro h; rw [h] at hl; cases hl
  ext ω
  simp only [Ends, Forced, Set.mem_union, Set.mem_inter_iff, Set.mem_preimage, Set.mem_ofPred_eq]
  constructor
  · rintro ⟨n, x, g1, g2⟩
    cases n with
    | zero => rw [pre_zero, post_nil false k idx even h0 h1] at g1; cases g1
    | succ n =>
      rw [pre_succ, post_photon k idx even hl] at g1
      by_cases hc : moved m0 l.energy k (ω 0) < l.energy + par.cut
      · rw [if_pos hc] at g1
        obtain ⟨i, s, g3, g4⟩ := Rnd.bind_ok.mp g1
        obtain ⟨g5, rfl⟩ := Rnd.get_ok.mp g4
        obtain ⟨l', g6, rfl⟩ := Option.map_eq_some_iff.mp g5
        exact .inl ⟨hc, n, i, l', g3, g6, g2⟩
      · rw [if_neg hc] at g1
        rw [← (Prod.mk.inj (Out.ok.inj g1)).1] at g2
        exact .inr ⟨hc, g2⟩
  · rintro (⟨hc, n, i, l', g3, g6, g2⟩ | ⟨hc, g2⟩)
    · refine ⟨n + 1, levelPoint m.n i l', ?_, g2⟩
      rw [pre_succ, post_photon k idx even hl, if_pos hc, Rnd.bind_of_ok g3]
      exact Rnd.get_ok.mpr ⟨by rw [g6]; rfl, rfl⟩
    · exact ⟨1, _, by rw [pre_succ, post_photon k idx even hl, if_neg hc]; rfl, g2⟩

theorem measurable_forced (m : MCPoint ℝ) (n0 : Nuc ℝ) (Q : MCPoint ℝ → Prop) : MeasurableSet (Forced m n0 Q) := by
  have : Forced m n0 Q = ⋃ k : Nat, ⋃ i : Nat, (At (forced n0.levels m.p m.j) i k ∩ {_ω | ∃ l, n0.levels[i]? = some l ∧ Q (levelPoint m.n i l)}) := by
    ext ω
    simp only [Forced, At, Set.mem_ofPred_eq, Set.mem_iUnion, Set.mem_inter_iff]
    constructor
    · rintro ⟨k, i, l, h1, h2, h3⟩
      exact ⟨k, i, h1, l, h2, h3⟩
    · rintro ⟨k, i, h1, l, h2, h3⟩
      exact ⟨k, i, l, h1, h2, h3⟩
  rw [this]
  exact MeasurableSet.iUnion fun k => MeasurableSet.iUnion fun i => (meas_forced _ _ _ i k).inter (MeasurableSet.const _)

theorem measurable_moved (mm : Mesh ℝ) (top : ℝ) (k : Nat) : Measurable fun r : ℝ => moved mm top k r := by
  unfold moved
  fun_prop

theorem measurable_ends (h : Pass par st m n0 n1 m0 m1) (Q : MCPoint ℝ → Prop)
    (hQ : ∀ c p j k, MeasurableSet {e : ℝ | Q ⟨c, p, j, k, e, false⟩}) (a : Bool × Cell) :
    MeasurableSet (Ends par m n0 n1 m0 m1 Q a) := by
  obtain ⟨b, c⟩ := a
  cases c with
  | disc i =>
    cases hl : (if b then n1 else n0).levels[i]? with
    | none => rw [ends_disc_none Q b i hl]; exact MeasurableSet.empty
    | some l => rw [ends_disc Q b i hl h.levels0]; exact MeasurableSet.const _
  | cont k idx even =>
    cases b with
    | true =>
      rw [ends_neutron Q h.other k idx even (List.getLast?_eq_getLast_of_ne_nil h.levels1) h.levels0]
      exact ((measurable_moved _ _ _).comp (measurable_pi_apply 0)) (hQ _ _ _ _)
    | false =>
      rw [ends_photon Q k idx even (List.getLast?_eq_getLast_of_ne_nil h.levels0) h.levels1]
      have hm : Measurable fun ω : ℕ → ℝ => moved m0 (n0.levels.getLast h.levels0).energy k (ω 0) :=
        (measurable_moved _ _ _).comp (measurable_pi_apply 0)
      have hlt : MeasurableSet {ω : ℕ → ℝ | moved m0 (n0.levels.getLast h.levels0).energy k (ω 0) <
          (n0.levels.getLast h.levels0).energy + par.cut} := measurableSet_lt hm measurable_const
      exact (hlt.inter (measurable_shift 1 (measurable_forced m n0 Q))).union (hlt.compl.inter (hm (hQ _ _ _ _)))

/-! ## Sums over the states -/

theorem popOf_weight (F : Cell → ℝ) (ts : List (Cell × ℝ)) (c : Cell) :
    popOf (ts.map fun t => (t.1, t.2 * F t.1)) c = popOf ts c * F c := by
  unfold popOf
  induction ts with
  | nil => simp
  | cons t ts ih =>
    rw [List.map_cons]
    by_cases hc : t.1 = c
    · rw [List.filter_cons_of_pos (by simpa using hc), List.filter_cons_of_pos (by simpa using hc), List.map_cons, List.map_cons,
        List.sum_cons, List.sum_cons, ih, add_mul, hc]
    · rw [List.filter_cons_of_neg (by simpa using hc), List.filter_cons_of_neg (by simpa using hc), ih]

theorem sum_weight {cs cs' : List Cell} (h1 : cs.Nodup) (h2 : cs'.Nodup) (F : Cell → ℝ) (ts : List (Cell × ℝ))
    (g1 : ∀ t ∈ ts, t.1 ∈ cs) (g2 : ∀ t ∈ ts, t.1 ∈ cs') :
    (cs.map fun c => popOf ts c * F c).sum = (cs'.map fun c => popOf ts c * F c).sum := by
  have e : ∀ cs : List Cell, (cs.map fun c => popOf ts c * F c) = cs.map (popOf (ts.map fun t => (t.1, t.2 * F t.1))) := by
    intro cs
    apply List.map_congr_left
    intro c _
    exact (popOf_weight F ts c).symm
  rw [e, e, sum_popOf h1, sum_popOf h2]
  · intro t ht
    obtain ⟨t', ht', rfl⟩ := List.mem_map.mp ht
    exact g2 t' ht'
  · intro t ht
    obtain ⟨t', ht', rfl⟩ := List.mem_map.mp ht
    exact g1 t' ht'

theorem sum_div {α : Type} (f : α → ℝ) (W : ℝ) (l : List α) : (l.map fun c => f c / W).sum = (l.map f).sum / W := by
  induction l with
  | nil => simp
  | cons a l ih => rw [List.map_cons, List.map_cons, List.sum_cons, List.sum_cons, ih, add_div]

/-- Sum over the candidates with weights, in terms of the transmission coefficients. -/
theorem candidates_weight (h : Pass par st m n0 n1 m0 m1) {pops : Pops ℝ}
    (hp : compoundDecay par.maxJ par.w n0 n1 m0 m1 (par.phys m.n m.e) m.p m.j (st.jmax m.n) (st.jmax n0.next) = pure pops)
    (F : Bool × Cell → ℝ) :
    ((candidates n0 n1 m0 m1 pops).map fun y => y.2 * F y.1).sum =
      (sumStates par.maxJ 1 m0.ncont n0.levels.length (fun c => strength par.maxJ par.w n0 n1 m0 m1 (par.phys m.n m.e) m.p m.j (false, c) * F (false, c)) +
       sumStates par.maxJ 0 m1.ncont n1.levels.length (fun c => strength par.maxJ par.w n0 n1 m0 m1 (par.phys m.n m.e) m.p m.j (true, c) * F (true, c))) /
      (photonWidth par.maxJ par.w n0 n1 m0 m1 (par.phys m.n m.e) m.p m.j +
        neutronWidth par.maxJ par.w n0 n1 m0 m1 (par.phys m.n m.e) m.p m.j) := by
  have h' : compoundDecay par.maxJ par.w n0 n1 m0 m1 (par.phys m.n m.e) m.p m.j (st.jmax m.n) (st.jmax n0.next) [] =
      .ok (pops, []) := by rw [hp]; rfl
  obtain ⟨t1, t2⟩ := total_widths (m1 := m1) (m0 := m0) (ph := par.phys m.n m.e) (w := par.w) h.spins h.spin.1 h.fits
  obtain ⟨nt, hnt, hj0, hj1, hc⟩ := compoundDecay_ok h'
  obtain ⟨p1, p2⟩ := pop_strength (maxJ := par.maxJ) (w := par.w) (m0 := m0) (m1 := m1) (ph := par.phys m.n m.e) (j := m.j) h.fits
  rw [← hnt] at t2 p2
  rcases hc with ⟨hz, -⟩ | ⟨ht, -, hpg, hpn⟩
  · rw [t1, t2] at hz
    exact absurd hz h.width_ne
  rw [t1, t2] at hpg hpn
  set W := photonWidth par.maxJ par.w n0 n1 m0 m1 (par.phys m.n m.e) m.p m.j +
        neutronWidth par.maxJ par.w n0 n1 m0 m1 (par.phys m.n m.e) m.p m.j with hW
  have hi := i0_cases n0
  have hJ := h.spins
  have hj := h.spin.1
  have hg : ((cells 1 m0.ncont pops.jmax0 n0.levels.length).map fun c => popOf pops.g c * F (false, c)).sum =
      sumStates par.maxJ 1 m0.ncont n0.levels.length
        (fun c => strength par.maxJ par.w n0 n1 m0 m1 (par.phys m.n m.e) m.p m.j (false, c) * F (false, c)) / W := by
    rw [sum_weight (cells_nodup _ _ _ _) (cells_nodup 1 m0.ncont ((par.maxJ : Int) - 1) n0.levels.length) (fun c => F (false, c)),
      ← sum_cells par.maxJ _ _ _ h.spins, ← sum_div]
    · congr 1
      apply List.map_congr_left
      intro c hc
      rw [hpg, popOf_scale, p1 c]
      · ring
      · have := mem_cells.mp hc
        cases c with
        | cont k idx e => exact ⟨this.1, this.2.1, this.2.2.1, by have := this.2.2.2; omega⟩
        | disc i => exact this
    · intro t ht
      rw [hpg] at ht
      obtain ⟨t', ht', rfl⟩ := List.mem_map.mp ht
      rw [hj0]
      exact gammaTerms_cells (t := t') ht'
    · intro t ht
      rw [hpg] at ht
      obtain ⟨t', ht', rfl⟩ := List.mem_map.mp ht
      have := mem_cells.mp (gammaTerms_cells (jm := 0) ht')
      have hb := jmax0After_le h.spins (j0 := 2 * m.j + i0 n0) (jm := 0) m0.ncont (by omega) (by omega)
      show t'.1 ∈ _
      rw [mem_cells]
      generalize t'.1 = c at this
      cases c with
      | cont k idx e => exact ⟨this.1, this.2.1, this.2.2.1, by have := this.2.2.2; omega⟩
      | disc i => exact this
  have hn : ((cells 0 m1.ncont pops.jmax1 n1.levels.length).map fun c => popOf pops.n c * F (true, c)).sum =
      sumStates par.maxJ 0 m1.ncont n1.levels.length
        (fun c => strength par.maxJ par.w n0 n1 m0 m1 (par.phys m.n m.e) m.p m.j (true, c) * F (true, c)) / W := by
    rw [sum_weight (cells_nodup _ _ _ _) (cells_nodup 0 m1.ncont ((par.maxJ : Int) - 1) n1.levels.length) (fun c => F (true, c)),
      ← sum_cells par.maxJ _ _ _ h.spins, ← sum_div]
    · congr 1
      apply List.map_congr_left
      intro c hc
      rw [hpn, popOf_scale, p2 c]
      · ring
      · have := mem_cells.mp hc
        cases c with
        | cont k idx e => exact ⟨this.2.1, this.2.2.1, by have := this.2.2.2; omega⟩
        | disc i => exact this
    · intro t ht
      rw [hpn] at ht
      obtain ⟨t', ht', rfl⟩ := List.mem_map.mp ht
      rw [hnt] at ht'
      rw [hj1]
      split at ht'
      · rename_i ho
        rw [if_pos ho]
        exact neutronTerms_cells (t := t') ht'
      · cases ht'
    · intro t ht
      rw [hpn] at ht
      obtain ⟨t', ht', rfl⟩ := List.mem_map.mp ht
      rw [hnt] at ht'
      split at ht'
      · have := mem_cells.mp (neutronTerms_cells (jm := 0) ht')
        have hb := jmax1After_le (maxJ := par.maxJ) (jcn := 2 * m.j + i0 n0) (b := (par.maxJ : Int) - 1)
          ((List.range m1.ncont).map fun k1 => lmaxOpen (m0.exc 0 - m1.exc k1 - n0.sn) ((par.phys m.n m.e).lmaxC k1)) 0 (by omega)
          (fun lm _ => jtopHalf_le hJ _ _)
        show t'.1 ∈ _
        rw [mem_cells]
        generalize t'.1 = c at this
        cases c with
        | cont k idx e => exact ⟨this.1, this.2.1, this.2.2.1, by have := this.2.2.2; omega⟩
        | disc i => exact this
      · cases ht'
  unfold candidates
  rw [List.map_append, List.sum_append, List.map_map, add_div, ← hg, ← hn]
  congr 1
  by_cases hs : n0.status = true
  · rw [if_pos hs, List.map_map]
    rfl
  · rw [if_neg hs]
    have : pops.n = [] := by
      rw [hpn, hnt, if_neg (by simp [nOpen, hs])]
      rfl
    rw [this]
    simp [popOf]

end CGMF.HF

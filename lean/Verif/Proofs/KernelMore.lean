import Verif.Proofs.Kernel
import Verif.Proofs.Pairs
import Verif.Model.SpinPar
import Verif.Props.SpinPar

/-!
# Measurability of the steps of the initial conditions
-/

namespace CGMF.Law

open MeasureTheory CGMF.Frag

variable {γ δ α β : Type} [MeasurableSpace γ] [MeasurableSpace δ] [MeasurableSpace α] [MeasurableSpace β]

/-- The value of an outcome. -/
def okO {α : Type} : Out α → Option α
  | .ok a => some a
  | _ => none

theorem okR_some {α : Type} {r : Res α} {a : α} : okR r = some a ↔ r = .ok a := by
  cases r <;> simp [okR]

theorem okO_some {α : Type} {r : Out α} {a : α} : okO r = some a ↔ r = .ok a := by
  cases r <;> simp [okO]

theorem okR_bind {α β : Type} (r : Res α) (f : α → Res β) : okR (r.bind f) = (okR r).bind fun a => okR (f a) := by
  cases r <;> rfl

theorem res_assoc {α β δ : Type} (r : Res α) (f : α → Res β) (g : β → Res δ) :
    (r.bind f).bind g = r.bind fun a => (f a).bind g := by
  cases r <;> rfl

theorem local_liftOut {α : Type} (x : Out α) : Local (liftOut x : Rnd ℝ α) := by
  intro s a s' h
  cases x with
  | ok b =>
    simp only [liftOut, Out.ok.injEq, Prod.mk.injEq] at h
    exact ⟨[], by rw [h.2]; rfl, fun t => by rw [← h.1]; rfl⟩
  | exit => simp [liftOut] at h
  | ub => simp [liftOut] at h
  | more => simp [liftOut] at h

theorem JM.liftOut {r : γ → Out α} (h : PM fun c => okO (r c)) : JM fun c => (Frag.liftOut (r c) : Rnd ℝ α) := by
  intro n
  cases n with
  | zero =>
    have e : (fun x : γ × (ℕ → ℝ) => outAt (Frag.liftOut (r x.1) : Rnd ℝ α) 0 x.2) = fun x => (fun c => okO (r c)) x.1 := by
      funext x
      unfold outAt Frag.liftOut okO
      simp only [pre_zero]
      cases r x.1 <;> rfl
    rw [e]
    exact h.comp measurable_fst
  | succ n =>
    have e : (fun x : γ × (ℕ → ℝ) => outAt (Frag.liftOut (r x.1) : Rnd ℝ α) (n + 1) x.2) = fun _ => none := by
      funext x
      unfold outAt Frag.liftOut
      have hp : pre x.2 (n + 1) ≠ [] := fun h => by simpa using congrArg List.length h
      cases r x.1 with
      | ok a =>
        cases hc : pre x.2 (n + 1) with
        | nil => exact absurd hc hp
        | cons y ys => rfl
      | _ => rfl
    rw [e]
    exact PM.none

/-- A constant first part. -/
theorem PM.bindR {ι : Type} (r : Res ι) {f : ι → γ → Res α} (h : ∀ i, PM fun c => okR (f i c)) :
    PM fun c => okR (r.bind fun i => f i c) := by
  cases r with
  | ok i => exact h i
  | exit => exact PM.none
  | ub => exact PM.none

/-- Results in a countable set. -/
theorem PM.countable {κ : Type} [Countable κ] [MeasurableSpace κ] {r : γ → Option κ}
    (h : ∀ k, MeasurableSet {c | r c = Option.some k}) : PM r := by
  intro S _
  have : {c | ∃ a ∈ S, r c = Option.some a} = ⋃ a, ⋃ (_ : a ∈ S), {c | r c = Option.some a} := by
    ext c
    simp
  rw [this]
  exact MeasurableSet.iUnion fun a => MeasurableSet.iUnion fun _ => h a

/-! ## Interpolation in a table -/

theorem measurable_findIdx (xs : List ℝ) : ∀ o : Option Nat, MeasurableSet {e : ℝ | xs.findIdx? (fun x => decide (e < x)) = o} := by
  induction xs with
  | nil => intro o; simp
  | cons x xs ih =>
    intro o
    have : {e : ℝ | (x :: xs).findIdx? (fun x => decide (e < x)) = o} =
        ({e | e < x} ∩ {_e | some 0 = o}) ∪ ({e | e < x}ᶜ ∩ {e | (xs.findIdx? (fun x => decide (e < x))).map (· + 1) = o}) := by
      ext e
      simp only [Set.mem_ofPred_eq, Set.mem_union, Set.mem_inter_iff, Set.mem_compl_iff, List.findIdx?_cons, decide_eq_true_eq]
      by_cases h : e < x <;> simp [h]
    rw [this]
    refine (measurableSet_Iio.inter (MeasurableSet.const _)).union (measurableSet_Iio.compl.inter ?_)
    have : {e : ℝ | (xs.findIdx? (fun x => decide (e < x))).map (· + 1) = o} =
        ⋃ (o' : Option Nat) (_ : o'.map (· + 1) = o), {e | xs.findIdx? (fun x => decide (e < x)) = o'} := by
      ext e
      simp
    rw [this]
    exact MeasurableSet.iUnion fun o' => MeasurableSet.iUnion fun _ => ih o'

theorem measurable_index (xs : List ℝ) (i : Int) : MeasurableSet {e : ℝ | findEnergyIndex e xs = i} := by
  have : {e : ℝ | findEnergyIndex e xs = i} = ⋃ (o : Option Nat) (_ : (match o with | some k => (k : Int) | none => -1) = i),
      {e | xs.tail.findIdx? (fun x => decide (e < x)) = o} := by
    ext e
    simp only [Set.mem_ofPred_eq, Set.mem_iUnion, exists_prop]
    constructor
    · intro h
      exact ⟨_, h, rfl⟩
    · rintro ⟨o, h, rfl⟩
      exact h
  rw [this]
  exact MeasurableSet.iUnion fun o => MeasurableSet.iUnion fun _ => measurable_findIdx _ o

theorem pm_interp (grid row : List ℝ) : PM fun e : ℝ => okR (interpRow grid row e) := by
  refine PM.cases (k := fun e : ℝ => findEnergyIndex e grid) (measurable_index grid) (r := fun i e => okR
    ((readAt grid i).bind fun e1 => (readAt grid (i + 1)).bind fun e2 => (readAt row i).bind fun t1 =>
      (readAt row (i + 1)).bind fun t2 => .ok ((t2 - t1) / (e2 - e1) * (e - e1) + t1))) fun i => ?_
  refine PM.bindR _ fun e1 => PM.bindR _ fun e2 => PM.bindR _ fun t1 => PM.bindR _ fun t2 => ?_
  exact PM.some (by fun_prop)

theorem pm_lookup (d : ℝ) (grid : List ℝ) (tab : List (List ℝ)) (z : Int) : PM fun e : ℝ => okR (lookup d grid tab z e) :=
  PM.bindR (readAt tab z) fun row => pm_interp grid (rowOf d row)

theorem pm_spinParameter (k : Phys ℝ) (alpha : ℝ) (t : Tables ℝ) (A Z : Int) :
    PM fun U : ℝ => okR (spinParameter k alpha t U A Z) := by
  unfold spinParameter spinParameter2 temperature
  simp only [res_assoc]
  refine PM.bindR _ fun d => PM.bindR _ fun b => PM.bindR _ fun row => PM.bindR _ fun tp => PM.bindR _ fun row' => ?_
  have h := pm_interp t.grid row'
  have := PM.bind (s := fun x : ℝ × ℝ => okR (.ok (inertia k alpha b A * x.2 / k.hbarc / k.hbarc))) h (PM.some (by fun_prop))
  convert this using 2
  rw [okR_bind]
  congr 1

/-! ## Sharing -/

theorem okO_shareLoop (ldpl ldph : ℝ → Res ℝ) (rt tol : ℝ) (hl : PM fun e => okR (ldpl e)) (hh : PM fun e => okR (ldph e)) :
    ∀ fuel, PM fun x : ℝ × ℝ × ℝ => okO (shareLoop ldpl ldph rt x.1 tol fuel x.2.1 x.2.2)
  | 0 => PM.none
  | fuel + 1 => by
    have ih := okO_shareLoop ldpl ldph rt tol hl hh fuel
    have m1 : Measurable fun x : ℝ × ℝ × ℝ => x.2.2 / (x.2.1 * rt * rt + x.2.2) * x.1 := by fun_prop
    have m2 : Measurable fun x : ℝ × ℝ × ℝ => x.1 - x.2.2 / (x.2.1 * rt * rt + x.2.2) * x.1 := by fun_prop
    have e : (fun x : ℝ × ℝ × ℝ => okO (shareLoop ldpl ldph rt x.1 tol (fuel + 1) x.2.1 x.2.2)) = fun x =>
        if x.2.1 * rt * rt + x.2.2 = 0 then none else
          (okR (ldpl (x.1 - x.2.2 / (x.2.1 * rt * rt + x.2.2) * x.1))).bind fun al' =>
            (okR (ldph (x.2.2 / (x.2.1 * rt * rt + x.2.2) * x.1))).bind fun ah' =>
              if tol < |al' - x.2.1| then okO (shareLoop ldpl ldph rt x.1 tol fuel al' ah')
              else some (x.1 - x.2.2 / (x.2.1 * rt * rt + x.2.2) * x.1, x.2.2 / (x.2.1 * rt * rt + x.2.2) * x.1) := by
      funext x
      rw [shareLoop]
      by_cases h0 : x.2.1 * rt * rt + x.2.2 = 0
      · simp only [h0, if_true]; rfl
      · simp only [h0, if_false]
        cases ldpl (x.1 - x.2.2 / (x.2.1 * rt * rt + x.2.2) * x.1) with
        | ok a =>
          cases ldph (x.2.2 / (x.2.1 * rt * rt + x.2.2) * x.1) with
          | ok b =>
            show okO (if _ then _ else _) = (if _ then _ else _)
            split <;> rfl
          | exit => rfl
          | ub => rfl
        | exit => rfl
        | ub => rfl
    rw [e]
    refine PM.ite (measurableSet_eq_fun (by fun_prop) (by fun_prop)) PM.none ?_
    refine PM.bind (s := fun y : (ℝ × ℝ × ℝ) × ℝ =>
      (okR (ldph (y.1.2.2 / (y.1.2.1 * rt * rt + y.1.2.2) * y.1.1))).bind fun ah' =>
        if tol < |y.2 - y.1.2.1| then okO (shareLoop ldpl ldph rt y.1.1 tol fuel y.2 ah')
        else some (y.1.1 - y.1.2.2 / (y.1.2.1 * rt * rt + y.1.2.2) * y.1.1,
          y.1.2.2 / (y.1.2.1 * rt * rt + y.1.2.2) * y.1.1)) (hl.comp m2) ?_
    refine PM.bind (s := fun z : ((ℝ × ℝ × ℝ) × ℝ) × ℝ =>
        if tol < |z.1.2 - z.1.1.2.1| then okO (shareLoop ldpl ldph rt z.1.1.1 tol fuel z.1.2 z.2)
        else some (z.1.1.1 - z.1.1.2.2 / (z.1.1.2.1 * rt * rt + z.1.1.2.2) * z.1.1.1,
          z.1.1.2.2 / (z.1.1.2.1 * rt * rt + z.1.1.2.2) * z.1.1.1)) (hh.comp (m1.comp measurable_fst)) ?_
    refine PM.ite (measurableSet_lt (by fun_prop) (by fun_prop)) ?_ (PM.some (by fun_prop))
    exact ih.comp (u := fun z : ((ℝ × ℝ × ℝ) × ℝ) × ℝ => (z.1.1.1, z.1.2, z.2)) (by fun_prop)

theorem okO_shareRT (ldpl ldph : ℝ → Res ℝ) (rt tol : ℝ) (hl : PM fun e => okR (ldpl e)) (hh : PM fun e => okR (ldph e))
    (fuel : Nat) : PM fun txe : ℝ => okO (shareRT ldpl ldph rt txe tol fuel) := by
  have e : (fun txe : ℝ => okO (shareRT ldpl ldph rt txe tol fuel)) = fun txe => (okR (ldpl (txe / 2))).bind fun al =>
      (okR (ldph (txe / 2))).bind fun ah => okO (shareLoop ldpl ldph rt txe tol fuel al ah) := by
    funext txe
    unfold shareRT
    cases ldpl (txe / 2) with
    | ok a => cases ldph (txe / 2) <;> rfl
    | exit => rfl
    | ub => rfl
  rw [e]
  refine PM.bind (s := fun y : ℝ × ℝ => (okR (ldph (y.1 / 2))).bind fun ah => okO (shareLoop ldpl ldph rt y.1 tol fuel y.2 ah))
    (hl.comp (by fun_prop)) ?_
  refine PM.bind (s := fun z : (ℝ × ℝ) × ℝ => okO (shareLoop ldpl ldph rt z.1.1 tol fuel z.1.2 z.2))
    (hh.comp (u := fun y : ℝ × ℝ => y.1 / 2) (by fun_prop)) ?_
  exact (okO_shareLoop ldpl ldph rt tol hl hh fuel).comp (u := fun z : (ℝ × ℝ) × ℝ => (z.1.1, z.1.2, z.2)) (by fun_prop)

/-! ## Spins -/

theorem jm_pickSpin (nj : Nat) {ps : γ → List ℝ} (h : ∀ i, PM fun c => okR (readAt (ps c) i)) :
    JM fun c => pickSpin nj (ps c) := by
  have hx : ∀ n, PM (fun x : γ × (ℕ → ℝ) => outAt (pickSpin nj (ps x.1)) n x.2) ∧
      PM (fun x : γ × (ℕ → ℝ) => outAt (pickSpin nj (ps x.1)) (n + 1) x.2) := by
    intro n
    induction n with
    | zero => exact ⟨PM.none, PM.none⟩
    | succ n ih =>
      refine ⟨ih.2, ?_⟩
      have mf : Measurable fun x : γ × (ℕ → ℝ) => ⌊x.2 0 * (nj : ℝ)⌋ :=
        Int.measurable_floor.comp (((measurable_pi_apply 0).comp measurable_snd).mul_const _)
      have e : (fun x : γ × (ℕ → ℝ) => outAt (pickSpin nj (ps x.1)) (n + 1 + 1) x.2) = fun x =>
          (okR (readAt (ps x.1) ⌊x.2 0 * (nj : ℝ)⌋)).bind fun p => if p < x.2 1 then outAt (pickSpin nj (ps x.1)) n (shift 2 x.2)
            else if n = 0 then some ⌊x.2 0 * (nj : ℝ)⌋.toNat else none := by
        funext x
        unfold outAt
        rw [pre_two_more, pickSpin]
        cases readAt (ps x.1) ⌊x.2 0 * (nj : ℝ)⌋ with
        | ok p =>
          simp only [okR, Option.bind_some]
          by_cases hp : p < x.2 1
          · simp only [hp, if_true]
          · simp only [hp, if_false]
            cases n with
            | zero => rfl
            | succ n =>
              rw [if_neg (by omega)]
              cases hc : pre (shift 2 x.2) (n + 1) with
              | nil => simpa using congrArg List.length hc
              | cons y ys => rfl
        | exit => rfl
        | ub => rfl
      rw [e]
      refine PM.bind (s := fun y : (γ × (ℕ → ℝ)) × ℝ => if y.2 < y.1.2 1 then outAt (pickSpin nj (ps y.1.1)) n (shift 2 y.1.2)
            else if n = 0 then some ⌊y.1.2 0 * (nj : ℝ)⌋.toNat else none) ?_ ?_
      · exact PM.cases (k := fun x : γ × (ℕ → ℝ) => ⌊x.2 0 * (nj : ℝ)⌋) (fun i => mf (measurableSet_singleton i))
          (r := fun i x => okR (readAt (ps x.1) i)) fun i => (h i).comp measurable_fst
      · refine PM.ite (measurableSet_lt measurable_snd ((measurable_pi_apply 1).comp (measurable_snd.comp measurable_fst))) ?_ ?_
        · exact ih.1.comp (u := fun y : (γ × (ℕ → ℝ)) × ℝ => (y.1.1, shift 2 y.1.2))
            ((measurable_fst.comp measurable_fst).prodMk ((measurable_shift 2).comp (measurable_snd.comp measurable_fst)))
        · by_cases hn : n = 0
          · simp only [hn, if_true]
            exact PM.some ((measurable_of_countable Int.toNat).comp (mf.comp measurable_fst))
          · simp only [hn, if_false]
            exact PM.none
  exact fun n => (hx n).1

theorem pm_spinProb (nj : Nat) (A : Int) (i : Int) : PM fun B : ℝ => okR (readAt (spinProb Real.exp nj A B) i) := by
  have hs : ∀ (l : List Nat), Measurable fun B : ℝ => (l.map fun j : Nat =>
      (2 * (spinOf A j : ℝ) + 1) * Real.exp (-(spinOf A j * (spinOf A j + 1)) / (2 * B))).sum := by
    intro l
    induction l with
    | nil => exact measurable_const
    | cons j l ih =>
      simp only [List.map_cons, List.sum_cons]
      exact Measurable.add (by fun_prop) ih
  by_cases hi : 0 ≤ i ∧ i.toNat < nj
  · have e : (fun B : ℝ => okR (readAt (spinProb Real.exp nj A B) i)) = fun B => some
        ((2 * (spinOf A i.toNat : ℝ) + 1) * Real.exp (-(spinOf A i.toNat * (spinOf A i.toNat + 1)) / (2 * B)) /
          ((List.range nj).map fun j : Nat =>
            (2 * (spinOf A j : ℝ) + 1) * Real.exp (-(spinOf A j * (spinOf A j + 1)) / (2 * B))).sum) := by
      funext B
      rw [okR_some, readAt_ok_iff]
      refine ⟨hi.1, ?_⟩
      unfold spinProb
      simp only [List.getElem?_map, List.getElem?_range hi.2, Option.map_some]
    rw [e]
    exact PM.some (Measurable.div (by fun_prop) (hs _))
  · have e : (fun B : ℝ => okR (readAt (spinProb Real.exp nj A B) i)) = fun _ => none := by
      funext B
      cases h : okR (readAt (spinProb Real.exp nj A B) i) with
      | none => rfl
      | some v =>
        obtain ⟨h1, h2⟩ := readAt_ok_iff.mp (okR_some.mp h)
        obtain ⟨h3, _⟩ := List.getElem?_eq_some_iff.mp h2
        exact absurd ⟨h1, by simpa [spinProb] using h3⟩ hi
    rw [e]
    exact PM.none

theorem local_undef {α : Type} : Local (Rnd.undef : Rnd ℝ α) := by
  intro s a s' h
  cases h

theorem local_spin (nj : Nat) (A : Int) (B : ℝ) : Local (spin Real.exp nj A B) := by
  unfold spin
  split
  · exact local_undef
  · exact local_bind (Props.local_pickSpin _ _) fun _ => local_pure _

theorem jm_spin (nj : Nat) (A : Int) : JM fun B : ℝ => spin Real.exp nj A B := by
  unfold spin
  refine JM.ite (measurableSet_eq_fun measurable_id measurable_const) (fun _ => PM.none) ?_
  exact JM.bind (g := fun x : ℝ × Nat => pure (spinOf A x.2)) (fun c => Props.local_pickSpin _ _)
    (jm_pickSpin nj (pm_spinProb nj A)) (JM.pure ((measurable_of_countable fun j : Nat => (spinOf A j : ℝ)).comp measurable_snd))

theorem jm_parity : JM fun _ : γ => (parity : Rnd ℝ Int) := by
  unfold parity
  refine JM.bind (g := fun x : γ × ℝ => pure (if x.2 < 1 / 2 then (-1 : Int) else 1)) (fun _ => CGMF.Isotropy.local_draw) JM.draw ?_
  exact JM.pure (Measurable.ite (measurableSet_lt measurable_snd measurable_const) measurable_const measurable_const)

/-! ## Loops over pairs -/

theorem local_pairs {α : Type} {acc : Set (ℝ × ℝ)} {X : ℝ × ℝ → α} {f : Rnd ℝ α} (h : PairLoop acc X f) : Local f := by
  have key : ∀ n s, s.length ≤ n → ∀ a s', f s = .ok (a, s') → ∃ p, s = p ++ s' ∧ ∀ t, f (p ++ t) = .ok (a, t) := by
    intro n
    induction n with
    | zero =>
      intro s hs a s' he
      obtain rfl := List.length_eq_zero_iff.mp (Nat.le_zero.mp hs)
      exact absurd he (h.nil _)
    | succ n ih =>
      intro s hs a s' he
      rcases s with _ | ⟨r1, _ | ⟨r2, s⟩⟩
      · exact absurd he (h.nil _)
      · exact absurd he (h.one _ _)
      · by_cases ha : (r1, r2) ∈ acc
        · rw [h.yes _ _ _ ha] at he
          simp only [Out.ok.injEq, Prod.mk.injEq] at he
          exact ⟨[r1, r2], by rw [he.2]; rfl, fun t => by rw [← he.1]; exact h.yes _ _ _ ha⟩
        · rw [h.no _ _ _ ha] at he
          obtain ⟨p, h1, h2⟩ := ih s (by simp only [List.length_cons] at hs; omega) a s' he
          exact ⟨r1 :: r2 :: p, by rw [h1]; rfl, fun t => by
            show f (r1 :: r2 :: (p ++ t)) = _
            rw [h.no _ _ _ ha]; exact h2 t⟩
  exact fun s => key s.length s le_rfl

theorem sm_pairs {acc : Set (ℝ × ℝ)} {X : ℝ × ℝ → α} {f : Rnd ℝ α} (h : PairLoop acc X f) (ha : MeasurableSet acc)
    (hX : Measurable X) : SM f := by
  have hx : ∀ n, PM (fun ω => outAt f n ω) ∧ PM (fun ω => outAt f (n + 1) ω) := by
    intro n
    induction n with
    | zero =>
      constructor
      · have : (fun ω => outAt f 0 ω) = fun _ => none := by
          funext ω
          cases he : outAt f 0 ω with
          | none => rfl
          | some a => exact absurd (outAt_eq.mp he) (h.nil _)
        rw [this]; exact PM.none
      · have : (fun ω => outAt f 1 ω) = fun _ => none := by
          funext ω
          cases he : outAt f 1 ω with
          | none => rfl
          | some a => exact absurd (outAt_eq.mp he) (h.one _ _)
        rw [this]; exact PM.none
    | succ n ih =>
      refine ⟨ih.2, ?_⟩
      classical
      have e : (fun ω => outAt f (n + 1 + 1) ω) = fun ω => if (ω 0, ω 1) ∈ acc then (if n = 0 then some (X (ω 0, ω 1)) else none)
          else outAt f n (shift 2 ω) := by
        funext ω
        unfold outAt
        rw [pre_two_more]
        by_cases hacc : (ω 0, ω 1) ∈ acc
        · rw [h.yes _ _ _ hacc, if_pos hacc]
          cases n with
          | zero => rfl
          | succ n =>
            rw [if_neg (by omega)]
            cases hc : pre (shift 2 ω) (n + 1) with
            | nil => simpa using congrArg List.length hc
            | cons y ys => rfl
        · rw [h.no _ _ _ hacc, if_neg hacc]
      rw [e]
      have mp : Measurable fun ω : ℕ → ℝ => (ω 0, ω 1) := (measurable_pi_apply 0).prodMk (measurable_pi_apply 1)
      refine PM.ite (mp ha) ?_ (ih.1.comp (measurable_shift 2))
      by_cases hn : n = 0
      · simp only [hn, if_true]
        exact PM.some (hX.comp mp)
      · simp only [hn, if_false]
        exact PM.none
  exact fun n => (hx n).1

end CGMF.Law

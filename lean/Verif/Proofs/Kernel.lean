import Verif.Spec.LawIn
import Verif.Proofs.Law
import Verif.Proofs.Directions
import Mathlib.MeasureTheory.Measure.Prod
import Mathlib.MeasureTheory.Integral.Lebesgue.Countable

/-!
# Laws of computations whose values have a continuous distribution

`PM` is measurability of a partial function, `JM` of a computation that depends on a parameter.  `law f` is the
distribution of the result of `f`; the law of a sequence is the integral of the laws of the second part.
-/

namespace CGMF.Law

open MeasureTheory

section Partial

variable {γ δ α β : Type} [MeasurableSpace γ] [MeasurableSpace δ] [MeasurableSpace α] [MeasurableSpace β]

/-- A partial function with measurable preimages. -/
def PM (r : γ → Option α) : Prop := ∀ S, MeasurableSet S → MeasurableSet {c | ∃ a ∈ S, r c = some a}

theorem PM.dom {r : γ → Option α} (h : PM r) : MeasurableSet {c | ∃ a, r c = some a} := by
  have := h Set.univ MeasurableSet.univ
  simpa using this

theorem PM.total {r : γ → Option α} (h : PM r) (d : α) : Measurable fun c => (r c).getD d := by
  intro S hS
  have e : (fun c => (r c).getD d) ⁻¹' S = {c | ∃ a ∈ S, r c = some a} ∪ ({c | ∃ a, r c = some a}ᶜ ∩ {_c | d ∈ S}) := by
    ext c
    simp only [Set.mem_preimage, Set.mem_union, Set.mem_ofPred_eq, Set.mem_inter_iff, Set.mem_compl_iff]
    cases r c with
    | none => simp
    | some a => simp
  rw [e]
  exact (h S hS).union (h.dom.compl.inter (MeasurableSet.const _))

/-- The value together with the argument. -/
theorem PM.graph {r : γ → Option α} (h : PM r) {S : Set (γ × α)} (hS : MeasurableSet S) :
    MeasurableSet {c | ∃ a, r c = some a ∧ (c, a) ∈ S} := by
  rcases isEmpty_or_nonempty α with he | ⟨⟨d⟩⟩
  · have : {c | ∃ a, r c = some a ∧ (c, a) ∈ S} = ∅ := by
      ext c
      simp only [Set.mem_ofPred_eq, Set.mem_empty_iff_false, iff_false, not_exists]
      exact fun a => (he.false a).elim
    rw [this]
    exact MeasurableSet.empty
  · have e : {c | ∃ a, r c = some a ∧ (c, a) ∈ S} = {c | ∃ a, r c = some a} ∩ (fun c => (c, (r c).getD d)) ⁻¹' S := by
      ext c
      simp only [Set.mem_ofPred_eq, Set.mem_inter_iff, Set.mem_preimage]
      cases r c with
      | none => simp
      | some a => simp
    rw [e]
    exact h.dom.inter ((measurable_id.prodMk (h.total d)) hS)

theorem PM.comp {r : γ → Option α} (h : PM r) {u : δ → γ} (hu : Measurable u) : PM fun x => r (u x) :=
  fun S hS => hu (h S hS)

theorem PM.bind {r : γ → Option α} {s : γ × α → Option β} (hr : PM r) (hs : PM s) :
    PM fun c => (r c).bind fun a => s (c, a) := by
  intro S hS
  have e : {c | ∃ b ∈ S, ((r c).bind fun a => s (c, a)) = some b} = {c | ∃ a, r c = some a ∧ (c, a) ∈ {x | ∃ b ∈ S, s x = some b}} := by
    ext c
    simp only [Set.mem_ofPred_eq]
    cases r c with
    | none => simp
    | some a => simp
  rw [e]
  exact hr.graph (hs S hS)

theorem PM.some {u : γ → α} (hu : Measurable u) : PM fun c => Option.some (u c) := by
  intro S hS
  have : {c | ∃ a ∈ S, Option.some (u c) = Option.some a} = u ⁻¹' S := by
    ext c
    simp
  rw [this]
  exact hu hS

theorem PM.none : PM fun _ : γ => (none : Option α) := by
  intro S _
  have : {c : γ | ∃ a ∈ S, (Option.none : Option α) = Option.some a} = ∅ := by
    ext c
    simp
  rw [this]
  exact MeasurableSet.empty

theorem PM.ite {p : γ → Prop} [DecidablePred p] (hp : MeasurableSet {c | p c}) {r s : γ → Option α} (hr : PM r) (hs : PM s) :
    PM fun c => if p c then r c else s c := by
  intro S hS
  have : {c | ∃ a ∈ S, (if p c then r c else s c) = Option.some a} =
      ({c | p c} ∩ {c | ∃ a ∈ S, r c = Option.some a}) ∪ ({c | p c}ᶜ ∩ {c | ∃ a ∈ S, s c = Option.some a}) := by
    ext c
    simp only [Set.mem_ofPred_eq, Set.mem_union, Set.mem_inter_iff, Set.mem_compl_iff]
    by_cases h : p c <;> simp [h]
  rw [this]
  exact (hp.inter (hr S hS)).union (hp.compl.inter (hs S hS))

/-- A partial function chosen by a value in a countable set. -/
theorem PM.cases {ι : Type} [Countable ι] {k : γ → ι} (hk : ∀ i, MeasurableSet {c | k c = i}) {r : ι → γ → Option α}
    (hr : ∀ i, PM (r i)) : PM fun c => r (k c) c := by
  intro S hS
  have : {c | ∃ a ∈ S, r (k c) c = Option.some a} = ⋃ i, ({c | k c = i} ∩ {c | ∃ a ∈ S, r i c = Option.some a}) := by
    ext c
    simp only [Set.mem_ofPred_eq, Set.mem_iUnion, Set.mem_inter_iff]
    constructor
    · rintro ⟨a, h1, h2⟩
      exact ⟨k c, rfl, a, h1, h2⟩
    · rintro ⟨i, rfl, a, h1, h2⟩
      exact ⟨a, h1, h2⟩
  rw [this]
  exact MeasurableSet.iUnion fun i => (hk i).inter (hr i S hS)

end Partial

section Joint

variable {γ δ α β : Type} [MeasurableSpace γ] [MeasurableSpace δ] [MeasurableSpace α] [MeasurableSpace β]

/-- The value when exactly `n` numbers are used. -/
def outAt {α : Type} (f : Rnd ℝ α) (n : Nat) (ω : ℕ → ℝ) : Option α :=
  match f (pre ω n) with
  | .ok (a, []) => some a
  | _ => none

theorem outAt_eq {α : Type} {f : Rnd ℝ α} {n : Nat} {ω : ℕ → ℝ} {a : α} : outAt f n ω = some a ↔ ω ∈ At f a n := by
  unfold outAt At
  simp only [Set.mem_ofPred_eq]
  split
  · next b h => rw [h]; simp
  · next h =>
    constructor
    · intro h'; cases h'
    · intro h'; exact absurd h' (h a)

/-- A computation with a parameter, jointly measurable in the parameter and the numbers. -/
def JM (f : γ → Rnd ℝ α) : Prop := ∀ n, PM fun x : γ × (ℕ → ℝ) => outAt (f x.1) n x.2

theorem JM.comp {f : γ → Rnd ℝ α} (h : JM f) {u : δ → γ} (hu : Measurable u) : JM fun d => f (u d) := fun n =>
  (h n).comp (u := fun x : δ × (ℕ → ℝ) => (u x.1, x.2)) ((hu.comp measurable_fst).prodMk measurable_snd)

theorem JM.fix {f : γ → Rnd ℝ α} (h : JM f) (c : γ) (n : Nat) : PM fun ω => outAt (f c) n ω :=
  (h n).comp (u := fun ω : ℕ → ℝ => (c, ω)) (measurable_const.prodMk measurable_id)

theorem JM.bind {f : γ → Rnd ℝ α} {g : γ × α → Rnd ℝ β} (hl : ∀ c, Local (f c)) (hf : JM f) (hg : JM g) :
    JM fun c => f c >>= fun a => g (c, a) := by
  intro n S hS
  have e : {x : γ × (ℕ → ℝ) | ∃ b ∈ S, outAt (f x.1 >>= fun a => g (x.1, a)) n x.2 = some b} =
      ⋃ m, ⋃ (_ : m ≤ n), {x | ∃ b ∈ S, ((outAt (f x.1) m x.2).bind fun a => outAt (g (x.1, a)) (n - m) (shift m x.2)) = some b} := by
    ext x
    simp only [Set.mem_ofPred_eq, Set.mem_iUnion, exists_prop, outAt_eq]
    constructor
    · rintro ⟨b, hb, h⟩
      obtain ⟨a, m, h1, h2, h3⟩ := (at_bind (hl x.1) b n x.2).mp h
      refine ⟨m, h1, b, hb, ?_⟩
      rw [outAt_eq.mpr h2]
      exact outAt_eq.mpr h3
    · rintro ⟨m, h1, b, hb, h⟩
      refine ⟨b, hb, (at_bind (hl x.1) b n x.2).mpr ?_⟩
      cases ho : outAt (f x.1) m x.2 with
      | none => rw [ho] at h; cases h
      | some a =>
        rw [ho] at h
        exact ⟨a, m, h1, outAt_eq.mp ho, outAt_eq.mp h⟩
  rw [e]
  refine MeasurableSet.iUnion fun m => MeasurableSet.iUnion fun _ => ?_
  refine PM.bind (s := fun y : (γ × (ℕ → ℝ)) × α => outAt (g (y.1.1, y.2)) (n - m) (shift m y.1.2)) (hf m) ?_ S hS
  exact (hg (n - m)).comp (u := fun y : (γ × (ℕ → ℝ)) × α => ((y.1.1, y.2), shift m y.1.2))
    (((measurable_fst.comp measurable_fst).prodMk measurable_snd).prodMk
      ((measurable_shift m).comp (measurable_snd.comp measurable_fst)))

theorem outAt_pure {α : Type} (a : α) (n : Nat) (ω : ℕ → ℝ) : outAt (pure a) n ω = if n = 0 then some a else none := by
  cases n with
  | zero => rfl
  | succ n =>
    rw [if_neg (by omega)]
    cases h : outAt (pure a : Rnd ℝ α) (n + 1) ω with
    | none => rfl
    | some b =>
      have := congrArg List.length (Rnd.pure_ok.mp (outAt_eq.mp h)).2
      simp at this

theorem JM.pure {u : γ → α} (hu : Measurable u) : JM fun c => (Pure.pure (u c) : Rnd ℝ α) := by
  intro n
  simp only [outAt_pure]
  cases n with
  | zero => exact PM.some (hu.comp measurable_fst)
  | succ n => exact PM.none

/-- The value of a result. -/
def okR {α : Type} : Res α → Option α
  | .ok a => some a
  | _ => none

/-- A computation without random numbers. -/
theorem JM.lift {r : γ → Res α} (h : PM fun c => okR (r c)) :
    JM fun c => (Rnd.lift (r c) : Rnd ℝ α) := by
  intro n
  cases n with
  | zero =>
    have e : (fun x : γ × (ℕ → ℝ) => outAt (Rnd.lift (r x.1) : Rnd ℝ α) 0 x.2) =
        fun x => (fun c => okR (r c)) x.1 := by
      funext x
      unfold outAt Rnd.lift okR
      simp only [pre_zero]
      cases r x.1 <;> rfl
    rw [e]
    exact h.comp measurable_fst
  | succ n =>
    have e : (fun x : γ × (ℕ → ℝ) => outAt (Rnd.lift (r x.1) : Rnd ℝ α) (n + 1) x.2) = fun _ => none := by
      funext x
      cases h : outAt (Rnd.lift (r x.1) : Rnd ℝ α) (n + 1) x.2 with
      | none => rfl
      | some b =>
        have := congrArg List.length (Rnd.lift_ok.mp (outAt_eq.mp h)).2
        simp at this
    rw [e]
    exact PM.none

theorem JM.ite {p : γ → Prop} [DecidablePred p] (hp : MeasurableSet {c | p c}) {f g : γ → Rnd ℝ α} (hf : JM f) (hg : JM g) :
    JM fun c => if p c then f c else g c := by
  intro n
  have e : (fun x : γ × (ℕ → ℝ) => outAt (if p x.1 then f x.1 else g x.1) n x.2) =
      fun x => if p x.1 then outAt (f x.1) n x.2 else outAt (g x.1) n x.2 := by
    funext x
    split <;> rfl
  rw [e]
  exact PM.ite (p := fun x : γ × (ℕ → ℝ) => p x.1) (measurable_fst hp) (hf n) (hg n)

theorem JM.draw : JM fun _ : γ => (Rnd.draw : Rnd ℝ ℝ) := by
  intro n
  by_cases hn : n = 1
  · subst hn
    exact PM.some (u := fun x : γ × (ℕ → ℝ) => x.2 0) ((measurable_pi_apply 0).comp measurable_snd)
  · have e : (fun x : γ × (ℕ → ℝ) => outAt (Rnd.draw : Rnd ℝ ℝ) n x.2) = fun _ => none := by
      funext x
      cases h : outAt (Rnd.draw : Rnd ℝ ℝ) n x.2 with
      | none => rfl
      | some b =>
        have := congrArg List.length (Rnd.draw_ok.mp (outAt_eq.mp h))
        simp only [pre_length, List.length_cons, List.length_nil] at this
        omega
    rw [e]
    exact PM.none

theorem JM.more : JM fun _ : γ => (fun _ => .more : Rnd ℝ α) := fun _ => PM.none

/-! ## The law of a computation -/

/-- A single computation. -/
abbrev SM (f : Rnd ℝ α) : Prop := ∀ n, PM fun ω => outAt f n ω

theorem outAt_dep {α : Type} {f : Rnd ℝ α} {n : Nat} {ω ω' : ℕ → ℝ} (h : ∀ i < n, ω i = ω' i) : outAt f n ω = outAt f n ω' := by
  unfold outAt
  rw [pre_congr h]

/-- The sequences on which `f` uses `n` numbers. -/
def dom {α : Type} (f : Rnd ℝ α) (n : Nat) : Set (ℕ → ℝ) := {ω | ∃ a, outAt f n ω = some a}

/-- Distribution of the result of `f`. -/
noncomputable def law [Nonempty α] (f : Rnd ℝ α) : Measure α :=
  Measure.sum fun n => (stream.restrict (dom f n)).map fun ω => (outAt f n ω).getD (Classical.arbitrary α)

variable [Nonempty α] [Nonempty β]

theorem probIn_sum {f : Rnd ℝ α} (hl : Local f) (hf : SM f) {S : Set α} (hS : MeasurableSet S) :
    probIn f S = ∑' n, stream {ω | ∃ a ∈ S, outAt f n ω = some a} := by
  unfold probIn
  have : {ω | ∃ n a, f (pre ω n) = .ok (a, []) ∧ a ∈ S} = ⋃ n, {ω | ∃ a ∈ S, outAt f n ω = some a} := by
    ext ω
    simp only [Set.mem_ofPred_eq, Set.mem_iUnion, outAt_eq, At]
    exact ⟨fun ⟨n, a, h1, h2⟩ => ⟨n, a, h2, h1⟩, fun ⟨n, a, h1, h2⟩ => ⟨n, a, h2, h1⟩⟩
  rw [this, measure_iUnion _ (fun n => hf n S hS)]
  intro m n hmn
  rw [Function.onFun, Set.disjoint_left]
  rintro ω ⟨a, _, h1⟩ ⟨b, _, h2⟩
  exact hmn (at_unique hl (outAt_eq.mp h1) (outAt_eq.mp h2)).2

theorem law_apply {f : Rnd ℝ α} (hl : Local f) (hf : SM f) {S : Set α} (hS : MeasurableSet S) : law f S = probIn f S := by
  unfold law
  rw [Measure.sum_apply _ hS, probIn_sum hl hf hS]
  apply tsum_congr
  intro n
  rw [Measure.map_apply ((hf n).total _) hS, Measure.restrict_apply (((hf n).total _) hS)]
  congr 1
  ext ω
  simp only [Set.mem_inter_iff, Set.mem_preimage, dom, Set.mem_ofPred_eq]
  cases outAt f n ω with
  | none => simp
  | some a => simp

/-- The value reached after `n` numbers and the numbers that follow are independent. -/
theorem split_law {f : Rnd ℝ α} (hf : SM f) (n : Nat) :
    (stream.restrict (dom f n)).map (fun ω => ((outAt f n ω).getD (Classical.arbitrary α), shift n ω)) =
      ((stream.restrict (dom f n)).map fun ω => (outAt f n ω).getD (Classical.arbitrary α)).prod stream := by
  have mA := (hf n).total (Classical.arbitrary α)
  have md : MeasurableSet (dom f n) := (hf n).dom
  symm
  apply Measure.prod_eq
  intro s t hs ht
  rw [Measure.map_apply (mA.prodMk (measurable_shift n)) (hs.prod ht), Measure.map_apply mA hs,
    Measure.restrict_apply ((mA.prodMk (measurable_shift n)) (hs.prod ht)), Measure.restrict_apply (mA hs)]
  have : (fun ω => ((outAt f n ω).getD (Classical.arbitrary α), shift n ω)) ⁻¹' (s ×ˢ t) ∩ dom f n =
      ((fun ω => (outAt f n ω).getD (Classical.arbitrary α)) ⁻¹' s ∩ dom f n) ∩ shift n ⁻¹' t := by
    ext ω
    simp only [Set.mem_inter_iff, Set.mem_preimage, Set.mem_prod]
    tauto
  rw [this]
  apply indep _ ht n _ ((mA hs).inter md)
  intro ω ω' h
  simp only [Set.mem_inter_iff, Set.mem_preimage, dom, Set.mem_ofPred_eq]
  rw [outAt_dep h]

theorem measurable_probIn {g : α → Rnd ℝ β} (hl : ∀ a, Local (g a)) (hg : JM g) {S : Set β} (hS : MeasurableSet S) :
    Measurable fun a => probIn (g a) S := by
  have e : (fun a => probIn (g a) S) = fun a => ∑' n, stream (Prod.mk a ⁻¹' {x : α × (ℕ → ℝ) | ∃ b ∈ S, outAt (g x.1) n x.2 = some b}) := by
    funext a
    rw [probIn_sum (hl a) (fun n => hg.fix a n) hS]
    rfl
  rw [e]
  exact Measurable.ennreal_tsum fun n => measurable_measure_prodMk_left (hg n S hS)

/-- The law of a sequence of two computations. -/
theorem probIn_bind {f : Rnd ℝ α} {g : α → Rnd ℝ β} (hl : Local f) (hf : SM f) (hlg : ∀ a, Local (g a)) (hg : JM g)
    {S : Set β} (hS : MeasurableSet S) : probIn (f >>= g) S = ∫⁻ a, probIn (g a) S ∂law f := by
  have hT : ∀ k, MeasurableSet {x : α × (ℕ → ℝ) | ∃ b ∈ S, outAt (g x.1) k x.2 = some b} := fun k => hg k S hS
  set T : Set (α × (ℕ → ℝ)) := {x | ∃ k, ∃ b ∈ S, outAt (g x.1) k x.2 = some b} with hTd
  have hTm : MeasurableSet T := by
    have : T = ⋃ k, {x : α × (ℕ → ℝ) | ∃ b ∈ S, outAt (g x.1) k x.2 = some b} := by
      ext x
      simp [hTd]
    rw [this]
    exact MeasurableSet.iUnion hT
  have mA : ∀ n, Measurable fun ω => (outAt f n ω).getD (Classical.arbitrary α) := fun n => (hf n).total _
  have mP : ∀ n, Measurable fun ω => ((outAt f n ω).getD (Classical.arbitrary α), shift n ω) :=
    fun n => (mA n).prodMk (measurable_shift n)
  have eG : ∀ a, probIn (g a) S = stream (Prod.mk a ⁻¹' T) := by
    intro a
    unfold probIn
    congr 1
    ext ω
    simp only [Set.mem_ofPred_eq, Set.mem_preimage, hTd, outAt_eq, At]
    exact ⟨fun ⟨n, b, h1, h2⟩ => ⟨n, b, h2, h1⟩, fun ⟨n, b, h1, h2⟩ => ⟨n, b, h2, h1⟩⟩
  have e : {ω | ∃ n b, (f >>= g) (pre ω n) = .ok (b, []) ∧ b ∈ S} =
      ⋃ m, (dom f m ∩ (fun ω => ((outAt f m ω).getD (Classical.arbitrary α), shift m ω)) ⁻¹' T) := by
    ext ω
    simp only [Set.mem_ofPred_eq, Set.mem_iUnion, Set.mem_inter_iff, Set.mem_preimage, dom]
    constructor
    · rintro ⟨n, b, h, hb⟩
      obtain ⟨a, m, h1, h2, h3⟩ := (at_bind hl b n ω).mp h
      have h2' := outAt_eq.mpr h2
      refine ⟨m, ⟨a, h2'⟩, n - m, b, hb, ?_⟩
      simp only [h2', Option.getD_some]
      exact outAt_eq.mpr h3
    · rintro ⟨m, ⟨a, h2⟩, k, b, hb, h3⟩
      simp only [h2, Option.getD_some] at h3
      refine ⟨m + k, b, (at_bind hl b (m + k) ω).mpr ⟨a, m, by omega, outAt_eq.mp h2, ?_⟩, hb⟩
      rw [Nat.add_sub_cancel_left]
      exact outAt_eq.mp h3
  have e' : probIn (f >>= g) S = stream {ω | ∃ n b, (f >>= g) (pre ω n) = .ok (b, []) ∧ b ∈ S} := rfl
  rw [e', e, measure_iUnion]
  · unfold law
    rw [lintegral_sum_measure]
    apply tsum_congr
    intro m
    rw [Set.inter_comm, ← Measure.restrict_apply (mP m hTm), ← Measure.map_apply (mP m) hTm, split_law hf m,
      Measure.prod_apply hTm]
    apply lintegral_congr
    intro a
    exact (eG a).symm
  · intro m n hmn
    rw [Function.onFun, Set.disjoint_left]
    rintro ω ⟨⟨a, h1⟩, _⟩ ⟨⟨b, h2⟩, _⟩
    exact hmn (at_unique hl (outAt_eq.mp h1) (outAt_eq.mp h2)).2
  · intro m
    exact ((hf m).dom).inter (mP m hTm)

theorem sm_bind {f : Rnd ℝ α} {g : α → Rnd ℝ β} (hl : Local f) (hf : SM f) (hg : JM g) : SM (f >>= g) := by
  have h := JM.bind (γ := Unit) (f := fun _ => f) (g := fun x : Unit × α => g x.2) (fun _ => hl)
    (fun n => (hf n).comp measurable_snd) (hg.comp measurable_snd)
  exact fun n => h.fix () n

theorem probIn_pure {α : Type} (a : α) (S : Set α) [Decidable (a ∈ S)] : probIn (pure a : Rnd ℝ α) S = if a ∈ S then 1 else 0 := by
  unfold probIn
  have : ∀ ω : ℕ → ℝ, (∃ n b, (pure a : Rnd ℝ α) (pre ω n) = .ok (b, []) ∧ b ∈ S) ↔ a ∈ S := by
    intro ω
    constructor
    · rintro ⟨n, b, h, hb⟩
      have e := (Rnd.pure_ok.mp h).1
      first | exact e ▸ hb | (subst e; exact hb)
    · intro h
      exact ⟨0, a, rfl, h⟩
  simp only [this]
  by_cases h : a ∈ S
  · simp [h]
  · simp [h]

end Joint

end CGMF.Law

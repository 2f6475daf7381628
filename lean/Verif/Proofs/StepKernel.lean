import Verif.Spec.Path
import Verif.Proofs.PassLaw
import Verif.Proofs.KernelMore

/-! # The pass of the continuum loop as a kernel on the points -/

namespace CGMF.HF

open MeasureTheory CGMF.Law CGMF.MC CGMF.Grid CGMF.Props

/-! ## Countable choices -/

section Choice

variable {γ δ α ι κ : Type} [MeasurableSpace γ] [MeasurableSpace δ] [MeasurableSpace α]

/-- A function whose level sets are measurable. -/
def CM (f : γ → ι) : Prop := ∀ i, MeasurableSet {c | f c = i}

theorem CM.const (i : ι) : CM fun _ : γ => i := fun _ => MeasurableSet.const _

theorem CM.comp {f : γ → ι} (h : CM f) {u : δ → γ} (hu : Measurable u) : CM fun d => f (u d) := fun i => hu (h i)

theorem CM.pred [Countable ι] {f : γ → ι} (h : CM f) (P : ι → Prop) : MeasurableSet {c | P (f c)} := by
  have : {c | P (f c)} = ⋃ i, ({c | f c = i} ∩ {_c | P i}) := by
    ext c
    simp
  rw [this]
  exact MeasurableSet.iUnion fun i => (h i).inter (MeasurableSet.const _)

theorem CM.bind [Countable ι] {f : γ → ι} (h : CM f) {g : ι → γ → κ} (hg : ∀ i, CM (g i)) : CM fun c => g (f c) c := by
  intro j
  have : {c | g (f c) c = j} = ⋃ i, ({c | f c = i} ∩ {c | g i c = j}) := by
    ext c
    simp
  rw [this]
  exact MeasurableSet.iUnion fun i => (h i).inter (hg i j)

theorem CM.ite {p : γ → Prop} [DecidablePred p] (hp : MeasurableSet {c | p c}) {f g : γ → ι} (hf : CM f) (hg : CM g) :
    CM fun c => if p c then f c else g c := by
  intro j
  have : {c | (if p c then f c else g c) = j} = ({c | p c} ∩ {c | f c = j}) ∪ ({c | p c}ᶜ ∩ {c | g c = j}) := by
    ext c
    by_cases h : p c <;> simp [h]
  rw [this]
  exact (hp.inter (hf j)).union (hp.compl.inter (hg j))

theorem CM.find {β : Type} {P : β → γ → Prop} [∀ b c, Decidable (P b c)] (hP : ∀ b, MeasurableSet {c | P b c}) :
    ∀ l : List β, CM fun c => l.find? fun b => decide (P b c) := by
  intro l
  induction l with
  | nil => exact CM.const none
  | cons b l ih =>
    have : (fun c => (b :: l).find? fun b => decide (P b c)) = fun c => if P b c then some b else l.find? fun b => decide (P b c) := by
      funext c
      by_cases h : P b c <;> simp [h]
    rw [this]
    exact CM.ite (hP b) (CM.const _) ih

theorem measurable_choice [Countable ι] {f : γ → ι} (h : CM f) {g : ι → γ → α} (hg : ∀ i, Measurable (g i)) :
    Measurable fun c => g (f c) c := by
  intro S hS
  have : (fun c => g (f c) c) ⁻¹' S = ⋃ i, ({c | f c = i} ∩ g i ⁻¹' S) := by
    ext c
    simp
  rw [this]
  exact MeasurableSet.iUnion fun i => (h i).inter (hg i hS)

theorem JM.cases [Countable ι] {k : γ → ι} (hk : CM k) {f : ι → γ → Rnd ℝ α} (hf : ∀ i, JM (f i)) : JM fun c => f (k c) c := by
  intro n
  exact PM.cases (k := fun x : γ × (ℕ → ℝ) => k x.1) (fun i => measurable_fst (hk i)) (fun i => hf i n)

theorem JM.undef : JM fun _ : γ => (Rnd.undef : Rnd ℝ α) := by
  intro n
  exact PM.none

theorem JM.const {f : Rnd ℝ α} (hf : SM f) : JM fun _ : γ => f := fun n => (hf n).comp measurable_snd

theorem measurable_list_sum {f : ι → γ → ℝ} (hf : ∀ i, Measurable (f i)) : ∀ l : List ι, Measurable fun c => (l.map fun i => f i c).sum := by
  intro l
  induction l with
  | nil => exact measurable_const
  | cons a l ih => exact (hf a).add ih

end Choice

/-! ## Points -/

/-- The part of a point that takes countably many values. -/
abbrev Key := ℕ × ℤ × ℤ × ℕ × Bool

/-- The countable part. -/
def keyOf (x : MCPoint ℝ) : Key := (x.n, x.p, x.j, x.k, x.disc)

/-- A point from its parts. -/
def ofKey (κ : Key) (e : ℝ) : MCPoint ℝ := ⟨κ.1, κ.2.1, κ.2.2.1, κ.2.2.2.1, e, κ.2.2.2.2⟩

instance : MeasurableSpace (MCPoint ℝ) := MeasurableSpace.comap (fun x => (keyOf x, x.e)) inferInstance

instance : Nonempty (MCPoint ℝ) := ⟨⟨0, 0, 0, 0, 0, false⟩⟩

theorem measurable_parts : Measurable fun x : MCPoint ℝ => (keyOf x, x.e) := comap_measurable _

theorem measurable_energy : Measurable fun x : MCPoint ℝ => x.e := measurable_snd.comp measurable_parts

theorem cm_key : CM keyOf := by
  intro κ
  exact (measurable_fst.comp measurable_parts) (measurableSet_singleton κ)

theorem measurable_point {γ : Type} [MeasurableSpace γ] (κ : Key) {f : γ → ℝ} (hf : Measurable f) : Measurable fun c => ofKey κ (f c) := by
  rintro S ⟨T, hT, rfl⟩
  exact (show Measurable fun c => (κ, f c) from measurable_const.prodMk hf) hT

theorem measurableSet_points {Q : MCPoint ℝ → Prop} (hQ : ∀ κ, MeasurableSet {e : ℝ | Q (ofKey κ e)}) : MeasurableSet {x | Q x} := by
  have : {x | Q x} = ⋃ κ, ({x | keyOf x = κ} ∩ (fun x : MCPoint ℝ => x.e) ⁻¹' {e | Q (ofKey κ e)}) := by
    ext x
    simp only [Set.mem_ofPred_eq, Set.mem_iUnion, Set.mem_inter_iff, Set.mem_preimage, exists_eq_left']
    exact Iff.rfl
  rw [this]
  exact MeasurableSet.iUnion fun κ => (cm_key κ).inter (measurable_energy (hQ κ))

theorem jm_points {α : Type} [MeasurableSpace α] {f : MCPoint ℝ → Rnd ℝ α} (h : ∀ κ, JM fun e : ℝ => f (ofKey κ e)) : JM f :=
  JM.cases (f := fun κ x => f (ofKey κ x.e)) cm_key fun κ => (h κ).comp measurable_energy

/-! ## The energy grid -/

/-- Number of bins and of continuum bins. -/
noncomputable def gridKey (w : ℝ) (N : Nat) (el E : ℝ) : Option (Nat × Nat) :=
  match setup w N el E with
  | .ok m => some (m.ntotal, m.ncont)
  | _ => none

theorem gridKey_some {w : ℝ} {N : Nat} {el E : ℝ} {m : Mesh ℝ} (h : setup w N el E = .ok m) :
    gridKey w N el E = some (m.ntotal, m.ncont) ∧ m = ⟨m.ntotal, m.ncont, excOf w E m.ntotal⟩ := by
  refine ⟨by unfold gridKey; rw [h], ?_⟩
  unfold setup at h
  cases hf : firstAbove w N E with
  | ok f =>
    rw [hf] at h
    cases h
    rfl
  | exit => rw [hf] at h; cases h
  | ub => rw [hf] at h; cases h

theorem measurable_exc (w : ℝ) (t k : Nat) : Measurable fun E : ℝ => excOf w E t k := by
  unfold excOf
  split
  · fun_prop
  · exact measurable_const

theorem cm_gridKey (w : ℝ) (N : Nat) (el : ℝ) : CM fun E : ℝ => gridKey w N el E := by
  have h1 : CM fun E : ℝ => (List.range N).find? fun k => decide (E < binEnergy w k) :=
    CM.find (P := fun k E => E < binEnergy w k) (fun k => measurableSet_Iio) _
  have h2 : ∀ t, CM fun E : ℝ => ncontOf E el t (excOf w E t) := by
    intro t
    unfold ncontOf
    refine CM.ite (MeasurableSet.const _) (CM.const _) (CM.ite measurableSet_Ioi ?_ (CM.const _))
    have : CM fun E : ℝ => (List.range' 1 (t - 1)).find? fun k => decide (excOf w E t k < el) :=
      CM.find (P := fun k E => excOf w E t k < el) (fun k => measurableSet_lt (measurable_exc w t k) measurable_const) _
    exact this.bind (g := fun o _ => match o with
      | some k => k - 1
      | none => 0) fun o => CM.const _
  have e : (fun E : ℝ => gridKey w N el E) = fun E => (fun (o : Option Nat) (E : ℝ) => match o with
      | some f => some (f + 1, ncontOf E el (f + 1) (excOf w E (f + 1)))
      | none => none) ((List.range N).find? fun k => decide (E < binEnergy w k)) E := by
    funext E
    unfold gridKey setup firstAbove
    cases (List.range N).find? fun k => decide (E < binEnergy w k) <;> rfl
  rw [e]
  refine h1.bind (g := fun (o : Option Nat) (E : ℝ) => match o with
      | some f => some (f + 1, ncontOf E el (f + 1) (excOf w E (f + 1)))
      | none => none) fun o => ?_
  cases o with
  | none => exact CM.const _
  | some f => exact (h2 (f + 1)).bind (g := fun c _ => some (f + 1, c)) fun c => CM.const _

/-! ## The table of the states -/

instance : Countable Cell := by
  let f : Cell → (ℕ × ℤ × Bool) ⊕ ℕ := fun c => match c with
    | .cont k i b => .inl (k, i, b)
    | .disc i => .inr i
  refine Function.Injective.countable (f := f) ?_
  intro a b h
  cases a <;> cases b <;> simp [f] at h ⊢ <;> exact h

/-- Total width of a point. -/
noncomputable def widthOf (par : Par ℝ) (m : MCPoint ℝ) (n0 n1 : Nuc ℝ) (m0 m1 : Mesh ℝ) : ℝ :=
  photonWidth par.maxJ par.w n0 n1 m0 m1 (par.phys m.n m.e) m.p m.j + neutronWidth par.maxJ par.w n0 n1 m0 m1 (par.phys m.n m.e) m.p m.j

/-- Share of a state. -/
noncomputable def shareOf (par : Par ℝ) (m : MCPoint ℝ) (n0 n1 : Nuc ℝ) (m0 m1 : Mesh ℝ) (a : Bool × Cell) : ℝ :=
  strength par.maxJ par.w n0 n1 m0 m1 (par.phys m.n m.e) m.p m.j a / widthOf par m n0 n1 m0 m1

/-- The states of a pass. -/
def labels (maxJ : Nat) (c0 c1 l0 l1 : Nat) : List (Bool × Cell) :=
  (cells 1 c0 ((maxJ : Int) - 1) l0).map (fun c => (false, c)) ++ (cells 0 c1 ((maxJ : Int) - 1) l1).map fun c => (true, c)

/-- The states with their shares. -/
noncomputable def table (par : Par ℝ) (m : MCPoint ℝ) (n0 n1 : Nuc ℝ) (m0 m1 : Mesh ℝ) : List ((Bool × Cell) × ℝ) :=
  (labels par.maxJ m0.ncont m1.ncont n0.levels.length n1.levels.length).map fun a => (a, shareOf par m n0 n1 m0 m1 a)

/-- What follows the selection of a state. -/
noncomputable def land (par : Par ℝ) (m : MCPoint ℝ) (n0 n1 : Nuc ℝ) (m0 m1 : Mesh ℝ) : Bool × Cell → Rnd ℝ (MCPoint ℝ)
  | (false, .disc i) => Rnd.get (n0.levels[i]?.map (levelPoint m.n i))
  | (true, .disc i) => Rnd.get (n1.levels[i]?.map (levelPoint n0.next i))
  | (true, .cont k j even) => Rnd.draw >>= fun r =>
      pure (ofKey (n0.next, if even then 1 else -1, j, k, false) (moved m1 (elmax n1.levels) k r))
  | (false, .cont k j even) => Rnd.draw >>= fun r =>
      if moved m0 (elmax n0.levels) k r < elmax n0.levels + par.cut then
        forced n0.levels m.p m.j >>= fun i => Rnd.get (n0.levels[i]?.map (levelPoint m.n i))
      else pure (ofKey (m.n, if even then 1 else -1, j, k, false) (moved m0 (elmax n0.levels) k r))

/-- A pass, without the history. -/
noncomputable def body (par : Par ℝ) (m : MCPoint ℝ) (n0 n1 : Nuc ℝ) (m0 m1 : Mesh ℝ) : Rnd ℝ (MCPoint ℝ) := Rnd.draw >>= fun r =>
  match firstReach r 0 (table par m n0 n1 m0 m1) with
  | some a => land par m n0 n1 m0 m1 a
  | none => Rnd.undef

/-- A pass, without the history. -/
noncomputable def step (par : Par ℝ) (m : MCPoint ℝ) : Rnd ℝ (MCPoint ℝ) :=
  match sites par m with
  | none => Rnd.undef
  | some d => body par m d.1.1 d.2.1 d.1.2 d.2.2

/-! ## Measurability -/

section Joint

variable {par : Par ℝ}

theorem measurable_photonStrength {t : Mult → ℝ → ℝ} (ht : ∀ mu, Measurable (t mu)) (J p J' p' : Int) :
    Measurable fun e => photonStrength (fun mu => t mu e) J p J' p' := by
  unfold photonStrength
  refine ((?_ : Measurable _).add ?_).add ?_
  all_goals
    split
    · exact ht _
    · exact measurable_const

theorem measurable_neutronStrength {t : Nat → ℝ → ℝ} (ht : ∀ i, Measurable (t i)) (L : Nat) (J p J' p' : Int) :
    Measurable fun e => neutronStrength L (fun i => t i e) J p J' p' := by
  unfold neutronStrength
  refine measurable_list_sum (f := fun (l : Nat) e => (if NeutronBy l (2 * l + 1) J p J' p' then t (3 * l) e else 0) +
    (if NeutronBy l (2 * l - 1) J p J' p' then t (3 * l + 1) e else 0)) ?_ _
  intro l
  refine (?_ : Measurable _).add ?_
  all_goals
    split
    · exact ht _
    · exact measurable_const

theorem cm_of_measurable {γ ι : Type} [MeasurableSpace γ] [MeasurableSpace ι] [MeasurableSingletonClass ι] {f : γ → ι} (h : Measurable f) :
    CM f := fun i => h (measurableSet_singleton i)

theorem measurable_photon_level {ph : ℝ → Phys ℝ} (hp : PhysMeasurable ph) (maxJ : Nat) (w : ℝ) (n0 n1 : Nuc ℝ) {m0 m1 : ℝ → Mesh ℝ}
    (p j : Int) (i : Nat) : Measurable fun e => strength maxJ w n0 n1 (m0 e) (m1 e) (ph e) p j (false, .disc i) := by
  cases hl : n0.levels[i]? with
  | none =>
    have : (fun e => strength maxJ w n0 n1 (m0 e) (m1 e) (ph e) p j (false, .disc i)) = fun _ => 0 := by
      funext e
      simp [strength, hl]
    rw [this]
    exact measurable_const
  | some l =>
    have : (fun e => strength maxJ w n0 n1 (m0 e) (m1 e) (ph e) p j (false, .disc i)) =
        fun e => photonStrength (fun mu => (ph e).tgD mu i) (2 * j + i0 n0) p l.spin2 l.parity := by
      funext e
      simp [strength, hl]
    rw [this]
    exact measurable_photonStrength (t := fun mu e => (ph e).tgD mu i) (fun mu => hp.tgD mu i) _ _ _ _

theorem measurable_neutron_level {ph : ℝ → Phys ℝ} (hp : PhysMeasurable ph) (maxJ : Nat) (w : ℝ) (n0 n1 : Nuc ℝ) {m0 m1 : ℝ → Mesh ℝ}
    (h0 : ∀ k, Measurable fun e => (m0 e).exc k) (p j : Int) (i : Nat) :
    Measurable fun e => strength maxJ w n0 n1 (m0 e) (m1 e) (ph e) p j (true, .disc i) := by
  cases hl : n1.levels[i]? with
  | none =>
    have : (fun e => strength maxJ w n0 n1 (m0 e) (m1 e) (ph e) p j (true, .disc i)) = fun _ => 0 := by
      funext e
      simp [strength, hl]
    rw [this]
    exact measurable_const
  | some l =>
    have : (fun e => strength maxJ w n0 n1 (m0 e) (m1 e) (ph e) p j (true, .disc i)) =
        fun e => if n0.status = true ∧ n0.sn + l.energy ≤ (m0 e).exc 0 ∧ n0.sn ≤ (m0 e).exc 0 ∧ 0 < (ph e).lmaxD i then
          neutronStrength ((ph e).lmaxD i).toNat ((ph e).tranD i) (2 * j + i0 n0) p l.spin2 l.parity else 0 := by
      funext e
      simp [strength, hl]
    rw [this]
    refine Measurable.ite ?_ ?_ measurable_const
    · refine MeasurableSet.inter (MeasurableSet.const _) (MeasurableSet.inter ?_ (MeasurableSet.inter ?_ ?_))
      · exact measurableSet_le measurable_const (h0 0)
      · exact measurableSet_le measurable_const (h0 0)
      · exact (hp.lmaxD i) (measurableSet_Ioi (a := (0 : ℤ)))
    · exact measurable_choice (g := fun L e => neutronStrength (Int.toNat L) ((ph e).tranD i) (2 * j + i0 n0) p l.spin2 l.parity)
        (cm_of_measurable (hp.lmaxD i)) fun L => measurable_neutronStrength (t := fun i' e => (ph e).tranD i i') (fun i' => hp.tranD i i') _ _ _ _ _

theorem measurable_strength {ph : ℝ → Phys ℝ} (hp : PhysMeasurable ph) (maxJ : Nat) (w : ℝ) (n0 n1 : Nuc ℝ) {m0 m1 : ℝ → Mesh ℝ}
    (h0 : ∀ k, Measurable fun e => (m0 e).exc k) (h1 : ∀ k, Measurable fun e => (m1 e).exc k) (p j : Int) (a : Bool × Cell) :
    Measurable fun e => strength maxJ w n0 n1 (m0 e) (m1 e) (ph e) p j a := by
  obtain ⟨b, c⟩ := a
  cases b <;> cases c with
  | cont k idx even =>
    first
    | exact (measurable_photonStrength (t := fun mu e => (ph e).tgC mu k) (fun mu => hp.tgC mu k) _ _ _ _).mul
        ((hp.dens0 k idx even).mul_const w)
    | unfold strength
      refine Measurable.ite ?_ ?_ measurable_const
      · refine MeasurableSet.inter (MeasurableSet.const _) (MeasurableSet.inter ?_ (MeasurableSet.inter ?_ (MeasurableSet.inter ?_ (MeasurableSet.const _))))
        · exact measurableSet_le ((h1 k).const_add _) (h0 0)
        · exact measurableSet_le measurable_const (h0 0)
        · exact (hp.lmaxC k) (measurableSet_Ioi (a := (0 : ℤ)))
      · refine Measurable.mul ?_ ((hp.dens1 k idx even).mul_const w)
        exact measurable_choice (g := fun L e => neutronStrength (Int.toNat L) ((ph e).tranC k) (2 * j + i0 n0) p (2 * idx + i0 n1) (if even then 1 else -1))
          (cm_of_measurable (hp.lmaxC k)) fun L => measurable_neutronStrength (t := fun i e => (ph e).tranC k i) (fun i => hp.tranC k i) _ _ _ _ _
  | disc i =>
    first
    | exact measurable_photon_level hp maxJ w n0 n1 p j i
    | exact measurable_neutron_level hp maxJ w n0 n1 h0 p j i

theorem measurable_sumStates {γ : Type} [MeasurableSpace γ] {f : γ → Cell → ℝ} (hf : ∀ c, Measurable fun x => f x c) (maxJ a b nlev : Nat) :
    Measurable fun x => sumStates maxJ a b nlev (f x) := by
  unfold sumStates
  refine (measurable_list_sum (f := fun k x => ((List.range maxJ).map fun i : Nat => f x (.cont k i true) + f x (.cont k i false)).sum)
    (fun k => measurable_list_sum (f := fun (i : Nat) x => f x (.cont k i true) + f x (.cont k i false)) (fun i => (hf _).add (hf _)) _) _).add
    (measurable_list_sum (f := fun i x => f x (.disc i)) (fun i => hf _) _)

theorem measurable_share (hp : ∀ n, PhysMeasurable (par.phys n)) (κ : Key) (n0 n1 : Nuc ℝ) {m0 m1 : ℝ → Mesh ℝ} {c0 c1 : Nat}
    (h0 : ∀ k, Measurable fun e => (m0 e).exc k) (h1 : ∀ k, Measurable fun e => (m1 e).exc k) (hc0 : ∀ e, (m0 e).ncont = c0)
    (hc1 : ∀ e, (m1 e).ncont = c1) (a : Bool × Cell) :
    Measurable fun e => shareOf par (ofKey κ e) n0 n1 (m0 e) (m1 e) a := by
  have hs := fun a => measurable_strength (hp κ.1) par.maxJ par.w n0 n1 h0 h1 κ.2.1 κ.2.2.1 a
  refine (hs a).div ?_
  unfold widthOf photonWidth neutronWidth
  simp only [hc0, hc1]
  exact (measurable_sumStates (f := fun e c => strength par.maxJ par.w n0 n1 (m0 e) (m1 e) (par.phys κ.1 e) κ.2.1 κ.2.2.1 (false, c))
    (fun c => hs _) _ _ _ _).add (measurable_sumStates (f := fun e c => strength par.maxJ par.w n0 n1 (m0 e) (m1 e) (par.phys κ.1 e) κ.2.1 κ.2.2.1 (true, c))
    (fun c => hs _) _ _ _ _)

theorem cm_first {γ α : Type} [MeasurableSpace γ] {r : γ → ℝ} (hr : Measurable r) {f : α → γ → ℝ} (hf : ∀ a, Measurable (f a)) :
    ∀ (l : List α) {s : γ → ℝ}, Measurable s → CM fun c => firstReach (r c) (s c) (l.map fun a => (a, f a c)) := by
  intro l
  induction l with
  | nil => intro s _; exact CM.const none
  | cons a l ih =>
    intro s hs
    exact CM.ite (p := fun c => r c ≤ s c + f a c) (measurableSet_le hr (hs.add (hf a))) (CM.const (some a)) (ih (hs.add (hf a)))

theorem measurable_moved2 {γ : Type} [MeasurableSpace γ] {mm : γ → Mesh ℝ} (hm : ∀ k, Measurable fun c => (mm c).exc k) (top : ℝ) (k : Nat)
    {r : γ → ℝ} (hr : Measurable r) : Measurable fun c => moved (mm c) top k (r c) := by
  have h1 : Measurable fun c => binTop (mm c) k := by
    unfold binTop
    split
    · exact hm 0
    · exact ((hm _).add (hm _)).div_const 2
  have h2 : Measurable fun c => binBottom (mm c) top k := (((hm _).add (hm _)).div_const 2).max measurable_const
  exact h2.add ((h1.sub h2).mul hr)

theorem sm_get {α : Type} [MeasurableSpace α] (o : Option α) : SM (Rnd.get o : Rnd ℝ α) := by
  cases o with
  | none => exact fun n => (JM.undef (γ := Unit)).fix () n
  | some a => exact fun n => (JM.pure (γ := Unit) (u := fun _ => a) measurable_const).fix () n

theorem sm_forced (levels : List (Level ℝ)) (p j : Int) : SM (forced levels p j) := by
  intro n S _
  have : {ω | ∃ a ∈ S, outAt (forced levels p j) n ω = some a} = ⋃ a ∈ S, At (forced levels p j) a n := by
    ext ω
    simp [outAt_eq]
  rw [this]
  exact MeasurableSet.biUnion (Set.to_countable S) fun a _ => meas_forced levels p j a n

theorem sm_fall (levels : List (Level ℝ)) (p j : Int) (c : Nat) :
    SM (forced levels p j >>= fun i => Rnd.get (levels[i]?.map (levelPoint c i)) : Rnd ℝ (MCPoint ℝ)) := by
  refine sm_bind (local_forced _ _ _) (sm_forced _ _ _) ?_
  exact JM.cases (f := fun i _ => Rnd.get (levels[i]?.map (levelPoint c i))) (k := fun i : Nat => i)
    (fun i => measurableSet_singleton i) fun i => JM.const (sm_get _)

theorem jm_land (κ : Key) (n0 n1 : Nuc ℝ) {m0 m1 : ℝ → Mesh ℝ} (h0 : ∀ k, Measurable fun e => (m0 e).exc k)
    (h1 : ∀ k, Measurable fun e => (m1 e).exc k) (a : Bool × Cell) : JM fun e => land par (ofKey κ e) n0 n1 (m0 e) (m1 e) a := by
  obtain ⟨b, c⟩ := a
  cases b <;> cases c with
  | disc i =>
    first
    | exact JM.const (f := Rnd.get (n0.levels[i]?.map (levelPoint κ.1 i))) (sm_get _)
    | exact JM.const (f := Rnd.get (n1.levels[i]?.map (levelPoint n0.next i))) (sm_get _)
  | cont k idx even =>
    first
    | refine JM.bind (f := fun _ : ℝ => Rnd.draw) (g := fun x : ℝ × ℝ =>
        if moved (m0 x.1) (elmax n0.levels) k x.2 < elmax n0.levels + par.cut then
          forced n0.levels κ.2.1 κ.2.2.1 >>= fun i => Rnd.get (n0.levels[i]?.map (levelPoint κ.1 i))
        else pure (ofKey (κ.1, if even then 1 else -1, idx, k, false) (moved (m0 x.1) (elmax n0.levels) k x.2)))
        (fun _ => Isotropy.local_draw) JM.draw ?_
      have hm : Measurable fun x : ℝ × ℝ => moved (m0 x.1) (elmax n0.levels) k x.2 :=
        measurable_moved2 (mm := fun x : ℝ × ℝ => m0 x.1) (fun k => (h0 k).comp measurable_fst) _ _ measurable_snd
      exact JM.ite (measurableSet_lt hm measurable_const) (JM.const (sm_fall _ _ _ _)) (JM.pure (measurable_point _ hm))
    | refine JM.bind (f := fun _ : ℝ => Rnd.draw) (g := fun x : ℝ × ℝ =>
        pure (ofKey (n0.next, if even then 1 else -1, idx, k, false) (moved (m1 x.1) (elmax n1.levels) k x.2)))
        (fun _ => Isotropy.local_draw) JM.draw ?_
      have hm : Measurable fun x : ℝ × ℝ => moved (m1 x.1) (elmax n1.levels) k x.2 :=
        measurable_moved2 (mm := fun x : ℝ × ℝ => m1 x.1) (fun k => (h1 k).comp measurable_fst) _ _ measurable_snd
      exact JM.pure (measurable_point _ hm)

theorem jm_body (hp : ∀ n, PhysMeasurable (par.phys n)) (κ : Key) (n0 n1 : Nuc ℝ) {m0 m1 : ℝ → Mesh ℝ} {c0 c1 : Nat}
    (h0 : ∀ k, Measurable fun e => (m0 e).exc k) (h1 : ∀ k, Measurable fun e => (m1 e).exc k) (hc0 : ∀ e, (m0 e).ncont = c0)
    (hc1 : ∀ e, (m1 e).ncont = c1) : JM fun e => body par (ofKey κ e) n0 n1 (m0 e) (m1 e) := by
  refine JM.bind (f := fun _ : ℝ => Rnd.draw) (g := fun x : ℝ × ℝ =>
    match firstReach x.2 0 (table par (ofKey κ x.1) n0 n1 (m0 x.1) (m1 x.1)) with
    | some a => land par (ofKey κ x.1) n0 n1 (m0 x.1) (m1 x.1) a
    | none => Rnd.undef) (fun _ => Isotropy.local_draw) JM.draw ?_
  have hcm : CM fun x : ℝ × ℝ => firstReach x.2 0 (table par (ofKey κ x.1) n0 n1 (m0 x.1) (m1 x.1)) := by
    unfold table
    simp only [hc0, hc1]
    exact cm_first (f := fun a (x : ℝ × ℝ) => shareOf par (ofKey κ x.1) n0 n1 (m0 x.1) (m1 x.1) a) measurable_snd
      (fun a => (measurable_share hp κ n0 n1 h0 h1 hc0 hc1 a).comp measurable_fst) _ measurable_const
  refine JM.cases (f := fun (o : Option (Bool × Cell)) (x : ℝ × ℝ) => match o with
    | some a => land par (ofKey κ x.1) n0 n1 (m0 x.1) (m1 x.1) a
    | none => Rnd.undef) hcm ?_
  intro o
  cases o with
  | none => exact JM.undef
  | some a => exact (jm_land κ n0 n1 h0 h1 a).comp measurable_fst

/-- A grid with given numbers of bins. -/
noncomputable def meshOf (w : ℝ) (t : Nat × Nat) (E : ℝ) : Mesh ℝ := ⟨t.1, t.2, excOf w E t.1⟩

theorem jm_step (hp : ∀ n, PhysMeasurable (par.phys n)) : JM (step par) := by
  refine jm_points fun κ => ?_
  cases hn0 : par.chain[κ.1]? with
  | none =>
    have : (fun e => step par (ofKey κ e)) = fun _ => Rnd.undef := by
      funext e
      have : sites par (ofKey κ e) = none := by
        unfold sites
        rw [show (ofKey κ e).n = κ.1 from rfl, hn0]
      unfold step
      rw [this]
    rw [this]
    exact JM.undef
  | some n0 =>
    cases hs : n0.status with
    | false =>
      have : (fun e => step par (ofKey κ e)) = fun e => (fun (o : Option (Nat × Nat)) (e : ℝ) => match o with
          | none => Rnd.undef
          | some t => body par (ofKey κ e) n0 n0 (meshOf par.w t e) (meshOf par.w t e)) (gridKey par.w par.nbin (elmax n0.levels) e) e := by
        funext e
        cases hg : setup par.w par.nbin (elmax n0.levels) e with
        | ok m0 =>
          have hsite : sites par (ofKey κ e) = some ((n0, m0), (n0, m0)) := by simp [sites, ofKey, hn0, hg, hs]
          simp only [step, hsite, (gridKey_some hg).1, meshOf, ← (gridKey_some hg).2]
        | exit => simp [step, sites, ofKey, hn0, hg, gridKey]
        | ub => simp [step, sites, ofKey, hn0, hg, gridKey]
      rw [this]
      refine JM.cases (f := fun (o : Option (Nat × Nat)) (e : ℝ) => match o with
          | none => Rnd.undef
          | some t => body par (ofKey κ e) n0 n0 (meshOf par.w t e) (meshOf par.w t e)) (cm_gridKey _ _ _) fun o => ?_
      cases o with
      | none => exact JM.undef
      | some t => exact jm_body hp κ n0 n0 (m0 := meshOf par.w t) (m1 := meshOf par.w t) (fun k => measurable_exc _ _ _) (fun k => measurable_exc _ _ _) (fun _ => rfl) fun _ => rfl
    | true =>
      cases hn1 : par.chain[n0.next]? with
      | none =>
        have : (fun e => step par (ofKey κ e)) = fun _ => Rnd.undef := by
          funext e
          have : sites par (ofKey κ e) = none := by
            unfold sites
            rw [show (ofKey κ e).n = κ.1 from rfl, hn0]
            simp only [hs, if_true, hn1]
            split <;> rfl
          unfold step
          rw [this]
        rw [this]
        exact JM.undef
      | some n1 =>
        have : (fun e => step par (ofKey κ e)) = fun e => (fun (o : Option (Nat × Nat) × Option (Nat × Nat)) (e : ℝ) => match o with
            | (some t, some t') => body par (ofKey κ e) n0 n1 (meshOf par.w t e) (meshOf par.w t' (e - n0.sn))
            | _ => Rnd.undef) (gridKey par.w par.nbin (elmax n0.levels) e, gridKey par.w par.nbin (elmax n1.levels) (e - n0.sn)) e := by
          funext e
          cases hg : setup par.w par.nbin (elmax n0.levels) e with
          | ok m0 =>
            cases hg' : setup par.w par.nbin (elmax n1.levels) (e - n0.sn) with
            | ok m1 =>
              have hsite : sites par (ofKey κ e) = some ((n0, m0), (n1, m1)) := by simp [sites, ofKey, hn0, hg, hs, hn1, hg']
              simp only [step, hsite, (gridKey_some hg).1, (gridKey_some hg').1, meshOf, ← (gridKey_some hg).2, ← (gridKey_some hg').2]
            | exit => simp [step, sites, ofKey, hn0, hg, hs, hn1, hg', gridKey]
            | ub => simp [step, sites, ofKey, hn0, hg, hs, hn1, hg', gridKey]
          | exit => simp [step, sites, ofKey, hn0, hg, gridKey]
          | ub => simp [step, sites, ofKey, hn0, hg, gridKey]
        rw [this]
        refine JM.cases (f := fun (o : Option (Nat × Nat) × Option (Nat × Nat)) (e : ℝ) => match o with
            | (some t, some t') => body par (ofKey κ e) n0 n1 (meshOf par.w t e) (meshOf par.w t' (e - n0.sn))
            | _ => Rnd.undef) ?_ fun o => ?_
        · rintro ⟨o, o'⟩
          have h2 : CM fun e : ℝ => gridKey par.w par.nbin (elmax n1.levels) (e - n0.sn) :=
            (cm_gridKey _ _ _).comp (measurable_id.sub_const _)
          have := (cm_gridKey par.w par.nbin (elmax n0.levels) o).inter (h2 o')
          convert this using 1
          ext e
          simp
        · obtain ⟨o, o'⟩ := o
          cases o with
          | none => exact JM.undef
          | some t =>
            cases o' with
            | none => exact JM.undef
            | some t' =>
              exact jm_body hp κ n0 n1 (m0 := meshOf par.w t) (m1 := fun e => meshOf par.w t' (e - n0.sn)) (fun k => measurable_exc _ _ _)
                (fun k => (measurable_exc _ _ _).comp (measurable_id.sub_const _)) (fun _ => rfl) fun _ => rfl

end Joint

end CGMF.HF

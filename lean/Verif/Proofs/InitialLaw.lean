import Verif.Proofs.KernelMore

/-!
# The loop over total kinetic energies as a random variable
-/

namespace CGMF.Law

open MeasureTheory CGMF.Frag CGMF.Pre

/-- The data of a pair as a tuple. -/
def enc (x : Exc ℝ) : ℝ × ℝ × (ℝ × ℝ × Int × Int) × ℝ × Bool := (x.ul, x.uh, x.spins.getD (0, 0, 0, 0), x.q, x.spins.isSome)

instance : MeasurableSpace (Exc ℝ) := MeasurableSpace.comap enc inferInstance

theorem measurable_enc : Measurable enc := comap_measurable enc

/-- A routine that ends with probability one for arguments in `B` and fails elsewhere; how many numbers it uses is measurable,
its result is not observed. -/
structure Works {M : Type} (B : Set ℝ) (f : ℝ → Rnd ℝ M) : Prop where
  loc : ∀ t, Local (f t)
  meas : ∀ n, MeasurableSet {x : ℝ × (ℕ → ℝ) | ∃ m, f x.1 (pre x.2 n) = .ok (m, [])}
  yes : ∀ t ∈ B, probIn (f t) Set.univ = 1
  no : ∀ t ∉ B, ∀ s x, f t s ≠ .ok x

section Boost

variable {M : Type} {B : Set ℝ} {f : ℝ → Rnd ℝ M}

theorem Works.jm (h : Works B f) : letI : MeasurableSpace M := ⊥; JM f := by
  letI : MeasurableSpace M := ⊥
  intro n S hS
  rcases MeasurableSpace.measurableSet_bot_iff.mp hS with rfl | rfl
  · simp
  · have : {x : ℝ × (ℕ → ℝ) | ∃ a ∈ (Set.univ : Set M), outAt (f x.1) n x.2 = some a} =
        {x | ∃ m, f x.1 (pre x.2 n) = .ok (m, [])} := by
      ext x
      simp only [Set.mem_univ, true_and, Set.mem_ofPred_eq, outAt_eq, At]
    rw [this]
    exact h.meas n

theorem Works.total (h : Works B f) (t : ℝ) [Decidable (t ∈ B)] : probIn (f t) Set.univ = if t ∈ B then 1 else 0 := by
  split
  · next ht => exact h.yes t ht
  · next ht =>
    unfold probIn
    have : {ω : ℕ → ℝ | ∃ n a, f t (pre ω n) = .ok (a, []) ∧ a ∈ (Set.univ : Set M)} = ∅ := by
      ext ω
      simp only [Set.mem_univ, and_true, Set.mem_ofPred_eq, Set.mem_empty_iff_false, iff_false, not_exists]
      intro n a ha
      exact h.no t ht _ _ ha
    rw [this, measure_empty]

/-- Running the routine before something that does not depend on its result. -/
theorem Works.before {α : Type} [MeasurableSpace α] [Nonempty α] [Nonempty M] (h : Works B f)
    (t : ℝ) [Decidable (t ∈ B)] {g : M → Rnd ℝ α} (hl : ∀ m, Local (g m))
    (hg : letI : MeasurableSpace M := ⊥; JM g) {S : Set α} (hS : MeasurableSet S) (P : ENNReal)
    (hP : ∀ m, probIn (g m) S = P) : probIn (f t >>= g) S = if t ∈ B then P else 0 := by
  letI : MeasurableSpace M := ⊥
  rw [probIn_bind (h.loc t) (fun n => (h.jm).fix t n) hl hg hS]
  simp only [hP]
  rw [lintegral_const, law_apply (h.loc t) (fun n => (h.jm).fix t n) MeasurableSet.univ, h.total t]
  split <;> simp

end Boost

theorem jm_const {γ α : Type} [MeasurableSpace γ] [MeasurableSpace α] {f : Rnd ℝ α} (h : SM f) : JM fun _ : γ => f :=
  fun n => (h n).comp measurable_snd

/-! ## Sharing, spins and parities -/

theorem shareLoop_sum (ldpl ldph : ℝ → Res ℝ) (rt txe tol : ℝ) : ∀ (fuel : Nat) (al ah : ℝ) (u : ℝ × ℝ),
    shareLoop ldpl ldph rt txe tol fuel al ah = .ok u → u.1 + u.2 = txe
  | 0, _, _, _, h => by cases h
  | fuel + 1, al, ah, u, h => by
    rw [shareLoop] at h
    split at h
    · cases h
    · simp only at h
      split at h
      · split at h
        · exact shareLoop_sum ldpl ldph rt txe tol fuel _ _ u h
        · cases h; ring
      all_goals cases h

theorem shareRT_sum {ldpl ldph : ℝ → Res ℝ} {rt txe tol : ℝ} {fuel : Nat} {u : ℝ × ℝ}
    (h : shareRT ldpl ldph rt txe tol fuel = .ok u) : u.1 + u.2 = txe := by
  unfold shareRT at h
  split at h
  · exact shareLoop_sum _ _ _ _ _ _ _ _ _ h
  all_goals cases h

/-- What an environment must satisfy: the exponential, a fixed temperature-ratio option, tables measurable in the energy. -/
structure Regular {M : Type} (v : Env ℝ M) : Prop where
  exp : v.exp = Real.exp
  rt : ∃ ratio, v.opt = .rt ratio
  ldp : ∀ z, PM fun e => okR (v.ldp z e)
  b2 : ∀ Z A, PM fun U => okR (v.b2 Z A U)

variable {M : Type} {v : Env ℝ M}

theorem local_excite (hv : Regular v) (fuel : Nat) (p : Pair) (txe q : ℝ) : Local (excite v fuel p txe q) := by
  unfold excite
  rw [hv.exp]
  split
  · exact local_pure _
  · exact local_bind (local_liftOut _) fun _ => local_bind (CGMF.Isotropy.local_lift _) fun _ => local_bind (local_spin _ _ _)
      fun _ => local_bind (CGMF.Isotropy.local_lift _) fun _ => local_bind (local_spin _ _ _) fun _ =>
        local_bind Props.local_parity fun _ => local_bind Props.local_parity fun _ => local_pure _

theorem measurable_exc {γ : Type} [MeasurableSpace γ] {f : γ → Exc ℝ} (h : Measurable fun c => enc (f c)) : Measurable f :=
  measurable_comap_iff.mpr h

section Steps

variable {γ : Type} [MeasurableSpace γ]

theorem jm_parities {ul uh jl jh : γ → ℝ} (h1 : Measurable ul) (h2 : Measurable uh) (h3 : Measurable jl) (h4 : Measurable jh) (q : ℝ) :
    JM fun c => (parity : Rnd ℝ Int) >>= fun pl => parity >>= fun ph => pure (⟨ul c, uh c, some (jl c, jh c, pl, ph), q⟩ : Exc ℝ) := by
  refine JM.bind (g := fun x : γ × Int => parity >>= fun ph =>
    pure (⟨ul x.1, uh x.1, some (jl x.1, jh x.1, x.2, ph), q⟩ : Exc ℝ)) (fun _ => Props.local_parity) jm_parity ?_
  refine JM.bind (g := fun x : (γ × Int) × Int =>
    pure (⟨ul x.1.1, uh x.1.1, some (jl x.1.1, jh x.1.1, x.1.2, x.2), q⟩ : Exc ℝ)) (fun _ => Props.local_parity) jm_parity ?_
  apply JM.pure
  apply measurable_exc
  simp only [enc, Option.getD_some, Option.isSome_some]
  have k : Measurable fun x : (γ × Int) × Int => x.1.1 := measurable_fst.comp measurable_fst
  exact (h1.comp k).prodMk ((h2.comp k).prodMk (((h3.comp k).prodMk ((h4.comp k).prodMk
    ((measurable_snd.comp measurable_fst).prodMk measurable_snd))).prodMk (measurable_const.prodMk measurable_const)))

/-- A spin with a measurable parameter, before something measurable. -/
theorem jm_oneSpin {β : Type} [MeasurableSpace β] (b : ℝ → Res ℝ) (hb : PM fun U => okR (b U)) (nj : Nat) (A : Int) {u : γ → ℝ} (hu : Measurable u)
    {g : γ × ℝ → Rnd ℝ β} (hg : JM g) : JM fun c => Rnd.lift (b (u c)) >>= fun x => spin Real.exp nj A x >>= fun j => g (c, j) := by
  refine JM.bind (g := fun y : γ × ℝ => spin Real.exp nj A y.2 >>= fun j => g (y.1, j)) (fun _ => CGMF.Isotropy.local_lift _)
    (JM.lift (hb.comp hu)) ?_
  refine JM.bind (g := fun z : (γ × ℝ) × ℝ => g (z.1.1, z.2)) (fun _ => local_spin _ _ _) ((jm_spin nj A).comp measurable_snd) ?_
  exact hg.comp (u := fun z : (γ × ℝ) × ℝ => (z.1.1, z.2)) ((measurable_fst.comp measurable_fst).prodMk measurable_snd)

end Steps

theorem jm_excite (hv : Regular v) (fuel : Nat) (p : Pair) (E q : ℝ) : JM fun t : ℝ => excite v fuel p (E - t) q := by
  obtain ⟨ratio, ho⟩ := hv.rt
  unfold excite
  rw [hv.exp, ho]
  refine JM.ite (measurableSet_lt (by fun_prop) measurable_const) (JM.pure measurable_const) ?_
  have hsh : PM fun t : ℝ => okO (share v.ldp v.tol (.rt ratio) fuel p (E - t)) :=
    (okO_shareRT _ _ _ _ (hv.ldp _) (hv.ldp _) fuel).comp (u := fun t : ℝ => E - t) (by fun_prop)
  have h3 : JM fun x : ((ℝ × (ℝ × ℝ)) × ℝ) × ℝ => (parity : Rnd ℝ Int) >>= fun pl => parity >>= fun ph =>
      pure (⟨x.1.1.2.1, x.1.1.2.2, some (x.1.2, x.2, pl, ph), q⟩ : Exc ℝ) :=
    jm_parities (by fun_prop) (by fun_prop) (by fun_prop) (by fun_prop) q
  have h2 : JM fun x : (ℝ × (ℝ × ℝ)) × ℝ => Rnd.lift (v.b2 p.zh p.ah x.1.2.2) >>= fun bh => spin Real.exp v.nj p.ah bh >>= fun jh =>
      parity >>= fun pl => parity >>= fun ph => pure (⟨x.1.2.1, x.1.2.2, some (x.2, jh, pl, ph), q⟩ : Exc ℝ) :=
    jm_oneSpin (v.b2 p.zh p.ah) (hv.b2 _ _) v.nj p.ah (u := fun x : (ℝ × (ℝ × ℝ)) × ℝ => x.1.2.2) (by fun_prop) h3
  have h1 : JM fun x : ℝ × (ℝ × ℝ) => Rnd.lift (v.b2 p.zl p.al x.2.1) >>= fun bl => spin Real.exp v.nj p.al bl >>= fun jl =>
      Rnd.lift (v.b2 p.zh p.ah x.2.2) >>= fun bh => spin Real.exp v.nj p.ah bh >>= fun jh =>
      parity >>= fun pl => parity >>= fun ph => pure (⟨x.2.1, x.2.2, some (jl, jh, pl, ph), q⟩ : Exc ℝ) :=
    jm_oneSpin (v.b2 p.zl p.al) (hv.b2 _ _) v.nj p.al (u := fun x : ℝ × (ℝ × ℝ) => x.2.1) (by fun_prop) h2
  exact JM.bind (fun _ => local_liftOut _) (JM.liftOut hsh) h1

/-- Both energies vanish only when there is nothing to share. -/
theorem excite_sum (hv : Regular v) {fuel : Nat} {p : Pair} {txe q : ℝ} (h0 : 0 < txe) {s s' : List ℝ} {x : Exc ℝ}
    (h : excite v fuel p txe q s = .ok (x, s')) : x.ul + x.uh = txe := by
  obtain ⟨ratio, ho⟩ := hv.rt
  unfold excite at h
  rw [if_neg (not_lt.mpr h0.le), ho] at h
  obtain ⟨u, s1, h1, h⟩ := Rnd.bind_ok.mp h
  obtain ⟨_, _, _, h⟩ := Rnd.bind_ok.mp h
  obtain ⟨_, _, _, h⟩ := Rnd.bind_ok.mp h
  obtain ⟨_, _, _, h⟩ := Rnd.bind_ok.mp h
  obtain ⟨_, _, _, h⟩ := Rnd.bind_ok.mp h
  obtain ⟨_, _, _, h⟩ := Rnd.bind_ok.mp h
  obtain ⟨_, _, _, h⟩ := Rnd.bind_ok.mp h
  obtain ⟨rfl, _⟩ := Rnd.pure_ok.mp h
  have : shareRT (v.ldp (1000 * p.zl + p.al)) (v.ldp (1000 * p.zh + p.ah)) (ratio p) txe v.tol fuel = .ok u := by
    simp only [liftOut, share] at h1
    revert h1
    cases shareRT (v.ldp (1000 * p.zl + p.al)) (v.ldp (1000 * p.zh + p.ah)) (ratio p) txe v.tol fuel <;> simp
    intro h _
    exact h
  exact shareRT_sum this

/-! ## The loop -/

/-- The remaining computation after a kinetic energy has been drawn. -/
noncomputable def after (v : Env ℝ M) (fuel : Nat) (k : Int) (p : Pair) (E q : ℝ) (next : Rnd ℝ (ℝ × Exc ℝ × M)) (t : ℝ) :
    Rnd ℝ (ℝ × Exc ℝ × M) := excite v fuel p (E - t) q >>= fun x => v.boost t p k >>= fun m =>
      if x.ul = 0 ∧ x.uh = 0 then next else pure (t, x, m)

theorem tkeLoop_succ {fuel : Nat} {a0 : Int} {c : Comp ℝ} {p : Pair} {ml mh : ℝ} (hml : v.mass (1000 * p.zl + p.al) = .ok ml)
    (hmh : v.mass (1000 * p.zh + p.ah) = .ok mh) (n : Nat) :
    tkeLoop v fuel a0 c p (n + 1) = (v.tke p.ah >>= after v fuel (a0 - c.ac) p (c.mx - ml - mh + (c.einc + c.sn)) (c.mx - ml - mh)
      (tkeLoop v fuel a0 c p n)) := by
  have e1 : ∀ {α β : Type} (x : α) (f : α → Rnd ℝ β), (Rnd.lift (.ok x) >>= f) = f x := fun _ _ => rfl
  have e2 : ∀ {α β δ : Type} (f : Rnd ℝ α) (g : α → Rnd ℝ β) (h : β → Rnd ℝ δ), (f >>= g) >>= h = f >>= fun a => g a >>= h := by
    intro α β δ f g h
    funext s
    rw [Rnd.bind_run, Rnd.bind_run, Rnd.bind_run]
    cases f s <;> rfl
  have e3 : ∀ {α β : Type} (x : α) (f : α → Rnd ℝ β), ((pure x : Rnd ℝ α) >>= f) = f x := fun _ _ => rfl
  rw [tkeLoop]
  congr 1
  funext t
  unfold initial after
  rw [hml, hmh]
  simp only [e1, e2, e3]

variable {B : Set ℝ} {k : Int} {p : Pair}

theorem local_after (hv : Regular v) (hb : Works B fun t => v.boost t p k) (fuel : Nat) (E q : ℝ)
    {next : Rnd ℝ (ℝ × Exc ℝ × M)} (hn : Local next) (t : ℝ) : Local (after v fuel k p E q next t) :=
  local_bind (local_excite hv _ _ _ _) fun x => local_bind (hb.loc t) fun m => by
    split
    · exact hn
    · exact local_pure _

theorem measurable_zero : MeasurableSet {x : Exc ℝ | x.ul = 0 ∧ x.uh = 0} := by
  have h1 : Measurable fun x : Exc ℝ => x.ul := measurable_fst.comp measurable_enc
  have h2 : Measurable fun x : Exc ℝ => x.uh := (measurable_fst.comp measurable_snd).comp measurable_enc
  exact (measurableSet_eq_fun h1 measurable_const).inter (measurableSet_eq_fun h2 measurable_const)

theorem measurable_sumU (E : ℝ) : MeasurableSet {x : Exc ℝ | x.ul + x.uh = E} := by
  have h1 : Measurable fun x : Exc ℝ => x.ul := measurable_fst.comp measurable_enc
  have h2 : Measurable fun x : Exc ℝ => x.uh := (measurable_fst.comp measurable_snd).comp measurable_enc
  exact measurableSet_eq_fun (h1.add h2) measurable_const

theorem jm_after (hv : Regular v) (hb : Works B fun t => v.boost t p k) (fuel : Nat) (E q : ℝ)
    {next : Rnd ℝ (ℝ × Exc ℝ × M)} (hn : letI : MeasurableSpace M := ⊥; SM next) :
    letI : MeasurableSpace M := ⊥; JM (after v fuel k p E q next) := by
  letI : MeasurableSpace M := ⊥
  refine JM.bind (g := fun y : ℝ × Exc ℝ => v.boost y.1 p k >>= fun m =>
      if y.2.ul = 0 ∧ y.2.uh = 0 then next else pure (y.1, y.2, m)) (fun t => local_excite hv _ _ _ _) (jm_excite hv fuel p E q) ?_
  refine JM.bind (g := fun z : (ℝ × Exc ℝ) × M => if z.1.2.ul = 0 ∧ z.1.2.uh = 0 then next else pure (z.1.1, z.1.2, z.2))
    (fun y => hb.loc y.1) ((hb.jm).comp measurable_fst) ?_
  refine JM.ite ((measurable_snd.comp measurable_fst) measurable_zero) (jm_const hn) (JM.pure ?_)
  exact (measurable_fst.comp measurable_fst).prodMk ((measurable_snd.comp measurable_fst).prodMk measurable_snd)

/-- Above the available energy the pass is repeated. -/
theorem after_above [Nonempty M] (hb : Works B fun t => v.boost t p k) (fuel : Nat) {E q : ℝ}
    {next : Rnd ℝ (ℝ × Exc ℝ × M)} (hln : Local next) (hn : letI : MeasurableSpace M := ⊥; SM next) {A : Set (ℝ × Exc ℝ × M)}
    (hA : letI : MeasurableSpace M := ⊥; MeasurableSet A) {t : ℝ} (ht : E < t) [Decidable (t ∈ B)] :
    probIn (after v fuel k p E q next t) A = if t ∈ B then probIn next A else 0 := by
  letI : MeasurableSpace M := ⊥
  have heq : after v fuel k p E q next t = (v.boost t p k >>= fun _ => next) := by
    unfold after excite
    rw [if_pos (by linarith)]
    show (v.boost t p k >>= fun m => if (0 : ℝ) = 0 ∧ (0 : ℝ) = 0 then next else _) = _
    simp
  haveI : Nonempty (ℝ × Exc ℝ × M) := ⟨(0, ⟨0, 0, none, 0⟩, Classical.arbitrary M)⟩
  rw [heq]
  exact hb.before t (fun _ => hln) (jm_const hn) hA _ (fun _ => rfl)

/-- Below it the pair is kept. -/
theorem after_below [Nonempty M] (hv : Regular v) (hb : Works B fun t => v.boost t p k) (fuel : Nat) {E q : ℝ}
    {next : Rnd ℝ (ℝ × Exc ℝ × M)} (hln : Local next) (hn : letI : MeasurableSpace M := ⊥; SM next) {A : Set (ℝ × Exc ℝ)}
    (hA : MeasurableSet A) {t : ℝ} (ht : t < E) [Decidable (t ∈ B)] :
    probIn (after v fuel k p E q next t) {y | (y.1, y.2.1) ∈ A} =
      if t ∈ B then probIn (excite v fuel p (E - t) q) {x | (t, x) ∈ A} else 0 := by
  letI : MeasurableSpace M := ⊥
  haveI : Nonempty (Exc ℝ) := ⟨⟨0, 0, none, 0⟩⟩
  haveI : Nonempty (ℝ × Exc ℝ × M) := ⟨(0, ⟨0, 0, none, 0⟩, Classical.arbitrary M)⟩
  have hA' : MeasurableSet {y : ℝ × Exc ℝ × M | (y.1, y.2.1) ∈ A} :=
    (measurable_fst.prodMk (measurable_fst.comp measurable_snd)) hA
  have hAt : MeasurableSet {x : Exc ℝ | (t, x) ∈ A} := (measurable_const.prodMk measurable_id) hA
  have hle := local_excite hv fuel p (E - t) q
  have hse : SM (excite v fuel p (E - t) q) := fun n => (jm_excite hv fuel p E q).fix t n
  have hsb : SM (v.boost t p k) := fun n => (hb.jm).fix t n
  have hlr : ∀ (x : Exc ℝ) (m : M), Local (if x.ul = 0 ∧ x.uh = 0 then next else pure (t, x, m)) := fun x m => by
    split
    · exact hln
    · exact local_pure _
  have hjr : JM fun z : Exc ℝ × M => if z.1.ul = 0 ∧ z.1.uh = 0 then next else pure (t, z.1, z.2) :=
    JM.ite (measurable_fst measurable_zero) (jm_const hn) (JM.pure (measurable_const.prodMk (measurable_fst.prodMk measurable_snd)))
  unfold after
  rw [probIn_bind hle hse (fun x => local_bind (hb.loc t) (hlr x))
    (JM.bind (g := fun z : Exc ℝ × M => if z.1.ul = 0 ∧ z.1.uh = 0 then next else pure (t, z.1, z.2)) (fun _ => hb.loc t)
      (jm_const hsb) hjr) hA']
  classical
  have hae : ∀ᵐ x ∂law (excite v fuel p (E - t) q), x.ul + x.uh = E - t := by
    rw [ae_iff]
    have hm : MeasurableSet {x : Exc ℝ | ¬ x.ul + x.uh = E - t} := (measurable_sumU (E - t)).compl
    rw [law_apply hle hse hm]
    unfold probIn
    have : {ω : ℕ → ℝ | ∃ n a, excite v fuel p (E - t) q (pre ω n) = .ok (a, []) ∧ a ∈ {x : Exc ℝ | ¬ x.ul + x.uh = E - t}} = ∅ := by
      ext ω
      simp only [Set.mem_ofPred_eq, Set.mem_empty_iff_false, iff_false, not_exists, not_and, not_not]
      intro n a h
      exact excite_sum hv (by linarith) h
    rw [this, measure_empty]
  have hint : ∀ᵐ x ∂law (excite v fuel p (E - t) q),
      probIn (v.boost t p k >>= fun m => if x.ul = 0 ∧ x.uh = 0 then next else pure (t, x, m)) {y | (y.1, y.2.1) ∈ A} =
        {x : Exc ℝ | (t, x) ∈ A}.indicator (fun _ => if t ∈ B then 1 else 0) x := by
    filter_upwards [hae] with x hx
    have hz : ¬ (x.ul = 0 ∧ x.uh = 0) := by
      rintro ⟨h1, h2⟩
      rw [h1, h2] at hx
      linarith
    simp only [if_neg hz]
    rw [hb.before t (g := fun m => pure (t, x, m)) (fun m => local_pure _)
      (JM.pure (u := fun m : M => (t, x, m)) (measurable_const.prodMk (measurable_const.prodMk measurable_id))) hA'
      (if (t, x) ∈ A then 1 else 0) (fun m => by
        rw [probIn_pure]
        rfl)]
    rw [Set.indicator_apply]
    by_cases h1 : (t, x) ∈ A <;> by_cases h2 : t ∈ B <;> simp [h1, h2]
  rw [lintegral_congr_ae hint, lintegral_indicator hAt, setLIntegral_const, law_apply hle hse hAt]
  split <;> simp

/-- The loop as a random variable. -/
theorem loop_reg [Nonempty M] (hv : Regular v) {a0 : Int} {c : Comp ℝ} (hb : Works B fun t => v.boost t p (a0 - c.ac))
    (fuel : Nat) (hlt : Local (v.tke p.ah)) (hst : SM (v.tke p.ah)) {ml mh : ℝ}
    (hml : v.mass (1000 * p.zl + p.al) = .ok ml) (hmh : v.mass (1000 * p.zh + p.ah) = .ok mh) :
    ∀ n, Local (tkeLoop v fuel a0 c p n) ∧ (letI : MeasurableSpace M := ⊥; SM (tkeLoop v fuel a0 c p n))
  | 0 => by
    letI : MeasurableSpace M := ⊥
    refine ⟨fun s a s' h => ?_, fun n => PM.none⟩
    cases h
  | n + 1 => by
    letI : MeasurableSpace M := ⊥
    haveI : Nonempty (ℝ × Exc ℝ × M) := ⟨(0, ⟨0, 0, none, 0⟩, Classical.arbitrary M)⟩
    obtain ⟨h1, h2⟩ := loop_reg hv hb fuel hlt hst hml hmh n
    rw [tkeLoop_succ hml hmh]
    exact ⟨local_bind hlt (local_after hv hb fuel _ _ h1), sm_bind hlt hst (jm_after hv hb fuel _ _ h2)⟩

/-- One more pass. -/
theorem loop_step [Nonempty M] (hv : Regular v) {a0 : Int} {c : Comp ℝ} (hb : Works B fun t => v.boost t p (a0 - c.ac))
    (hB : MeasurableSet B) (fuel : Nat) (hlt : Local (v.tke p.ah)) (hst : SM (v.tke p.ah)) {ml mh : ℝ}
    (hml : v.mass (1000 * p.zl + p.al) = .ok ml) (hmh : v.mass (1000 * p.zh + p.ah) = .ok mh) {E q : ℝ}
    (hq : q = c.mx - ml - mh) (hE : E = q + (c.einc + c.sn)) {N : Measure ℝ}
    (hN : ∀ S, MeasurableSet S → probIn (v.tke p.ah) S = N S) (hE0 : N {E} = 0) {A : Set (ℝ × Exc ℝ)} (hA : MeasurableSet A)
    (n : Nat) : probIn (tkeLoop v fuel a0 c p (n + 1)) {y | (y.1, y.2.1) ∈ A} =
      N (Set.Ioi E ∩ B) * probIn (tkeLoop v fuel a0 c p n) {y | (y.1, y.2.1) ∈ A} +
        ∫⁻ t in Set.Iio E ∩ B, probIn (excite v fuel p (E - t) q) {x | (t, x) ∈ A} ∂N := by
  classical
  letI : MeasurableSpace M := ⊥
  haveI : Nonempty (ℝ × Exc ℝ × M) := ⟨(0, ⟨0, 0, none, 0⟩, Classical.arbitrary M)⟩
  obtain ⟨h1, h2⟩ := loop_reg hv hb fuel hlt hst hml hmh n
  have hA' : MeasurableSet {y : ℝ × Exc ℝ × M | (y.1, y.2.1) ∈ A} :=
    (measurable_fst.prodMk (measurable_fst.comp measurable_snd)) hA
  have hlaw : law (v.tke p.ah) = N := by
    ext S hS
    rw [law_apply hlt hst hS, hN S hS]
  rw [tkeLoop_succ hml hmh, ← hq, ← hE, probIn_bind hlt hst (local_after hv hb fuel E q h1) (jm_after hv hb fuel E q h2) hA', hlaw]
  have hae : ∀ᵐ t ∂N, t ≠ E := by
    rw [ae_iff]
    simpa using hE0
  have hint : ∀ᵐ t ∂N, probIn (after v fuel (a0 - c.ac) p E q (tkeLoop v fuel a0 c p n) t) {y | (y.1, y.2.1) ∈ A} =
      (Set.Ioi E ∩ B).indicator (fun _ => probIn (tkeLoop v fuel a0 c p n) {y | (y.1, y.2.1) ∈ A}) t +
        (Set.Iio E ∩ B).indicator (fun t => probIn (excite v fuel p (E - t) q) {x | (t, x) ∈ A}) t := by
    filter_upwards [hae] with t ht
    rcases lt_or_gt_of_ne ht with h | h
    · rw [after_below hv hb fuel h1 h2 hA h, Set.indicator_apply, Set.indicator_apply]
      have h' : ¬ E < t := not_lt.mpr h.le
      by_cases hb : t ∈ B <;> simp [hb, h, h']
    · rw [after_above hb fuel h1 h2 hA' h, Set.indicator_apply, Set.indicator_apply]
      have h' : ¬ t < E := not_lt.mpr h.le
      by_cases hb : t ∈ B <;> simp [hb, h, h']
  rw [lintegral_congr_ae hint, lintegral_add_left (measurable_const.indicator (measurableSet_Ioi.inter hB)),
    lintegral_indicator (measurableSet_Ioi.inter hB), lintegral_indicator (measurableSet_Iio.inter hB), setLIntegral_const, mul_comm]

/-- All passes. -/
theorem loop_law [Nonempty M] (hv : Regular v) {a0 : Int} {c : Comp ℝ} (hb : Works B fun t => v.boost t p (a0 - c.ac))
    (hB : MeasurableSet B) (fuel : Nat) (hlt : Local (v.tke p.ah)) (hst : SM (v.tke p.ah)) {ml mh : ℝ}
    (hml : v.mass (1000 * p.zl + p.al) = .ok ml) (hmh : v.mass (1000 * p.zh + p.ah) = .ok mh) {E q : ℝ}
    (hq : q = c.mx - ml - mh) (hE : E = q + (c.einc + c.sn)) {N : Measure ℝ}
    (hN : ∀ S, MeasurableSet S → probIn (v.tke p.ah) S = N S) (hE0 : N {E} = 0) {A : Set (ℝ × Exc ℝ)} (hA : MeasurableSet A)
    (n : Nat) : probIn (tkeLoop v fuel a0 c p n) {y | (y.1, y.2.1) ∈ A} =
      (∑ i ∈ Finset.range n, N (Set.Ioi E ∩ B) ^ i) *
        ∫⁻ t in Set.Iio E ∩ B, probIn (excite v fuel p (E - t) q) {x | (t, x) ∈ A} ∂N := by
  induction n with
  | zero =>
    simp only [Finset.range_zero, Finset.sum_empty, zero_mul]
    unfold probIn
    have : {ω : ℕ → ℝ | ∃ n a, tkeLoop v fuel a0 c p 0 (pre ω n) = .ok (a, []) ∧ a ∈ {y : ℝ × Exc ℝ × M | (y.1, y.2.1) ∈ A}} = ∅ := by
      ext ω
      simp [tkeLoop]
    rw [this, measure_empty]
  | succ n ih =>
    rw [loop_step hv hb hB fuel hlt hst hml hmh hq hE hN hE0 hA, ih, Finset.sum_range_succ']
    simp only [pow_succ, pow_zero]
    rw [← Finset.sum_mul]
    ring

end CGMF.Law

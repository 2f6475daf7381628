import Verif.Proofs.Session

/-! # Which properties of a fission have a probability, and the choices of the object -/

namespace CGMF.Law

open MeasureTheory CGMF.Pre CGMF.Frag CGMF.Props

section

variable {M : Type} {amu : ℝ} {fuel : Nat} {a0 : Int}

/-- What is written to the yields file of a fission, except momenta: the pair, the total kinetic energy, energies, spins, parities. -/
def shown (f : Frags ℝ M) : Pair × ℝ × Exc ℝ := (f.p, f.tke, f.x)

instance : MeasurableSpace Pair := ⊤
instance : Nonempty Pair := ⟨⟨0, 0, 0, 0⟩⟩
instance : Countable Pair := by
  refine Function.Injective.countable (f := fun p : Pair => (p.zl, p.al, p.zh, p.ah)) fun p q h => ?_
  cases p
  cases q
  simp only [Prod.mk.injEq] at h
  obtain ⟨rfl, rfl, rfl, rfl⟩ := h
  rfl
instance : MeasurableSpace (Frags ℝ M) := MeasurableSpace.comap shown inferInstance
instance : MeasurableSpace (Comp ℝ) := ⊤

theorem measurable_shown : Measurable (shown : Frags ℝ M → _) := comap_measurable _

/-- Tables and routines for which fissions have a law. -/
structure Tame (v : Env ℝ M) (t : Tab ℝ) (a0 : Int) (c : Comp ℝ) : Prop where
  regular : Regular v
  boost : ∀ p, ∃ B, Works B fun x => v.boost x p (a0 - c.ac)
  tke : ∀ a, Local (v.tke a) ∧ SM (v.tke a)
  dZ : 0 ≤ t.dZ
  masses : t.amin ≤ t.amax

theorem loop_any {v : Env ℝ M} {t : Tab ℝ} {c : Comp ℝ} [Nonempty M] (h : Tame v t a0 c) (p : Pair) (n : Nat) :
    Local (tkeLoop v fuel a0 c p n) ∧ (letI : MeasurableSpace M := ⊥; SM (tkeLoop v fuel a0 c p n)) := by
  letI : MeasurableSpace M := ⊥
  obtain ⟨B, hB⟩ := h.boost p
  by_cases hm : ∃ ml mh, v.mass (1000 * p.zl + p.al) = .ok ml ∧ v.mass (1000 * p.zh + p.ah) = .ok mh
  · obtain ⟨ml, mh, e1, e2⟩ := hm
    exact loop_reg h.regular hB fuel (h.tke _).1 (h.tke _).2 e1 e2 n
  · have hno : ∀ n s x, tkeLoop v fuel a0 c p n s ≠ .ok x := by
      intro n s x hx
      cases n with
      | zero => cases hx
      | succ n =>
        obtain ⟨_, _, -, hx⟩ := Rnd.bind_ok.mp hx
        obtain ⟨_, _, hx, -⟩ := Rnd.bind_ok.mp hx
        obtain ⟨ml, _, g1, hx⟩ := Rnd.bind_ok.mp hx
        obtain ⟨mh, _, g2, hx⟩ := Rnd.bind_ok.mp hx
        exact hm ⟨ml, mh, (Rnd.lift_ok.mp g1).1, (Rnd.lift_ok.mp g2).1⟩
    refine ⟨fun s a s' hs => absurd hs (hno _ _ _), fun k S _ => ?_⟩
    have : {ω : ℕ → ℝ | ∃ a ∈ S, outAt (tkeLoop v fuel a0 c p n) k ω = some a} = ∅ := by
      ext ω
      simp only [Set.mem_ofPred_eq, Set.mem_empty_iff_false, iff_false, not_exists, not_and]
      intro a _ ha
      exact hno _ _ _ (outAt_eq.mp ha)
    rw [this]
    exact MeasurableSet.empty

theorem sm_sample {v : Env ℝ M} {t : Tab ℝ} {c : Comp ℝ} [Nonempty M] (h : Tame v t a0 c) :
    Local (sample v amu t fuel a0 c) ∧ SM (sample v amu t fuel a0 c) := by
  letI : MeasurableSpace M := ⊥
  haveI : Nonempty (ℝ × Exc ℝ × M) := ⟨(0, ⟨0, 0, none, 0⟩, Classical.arbitrary M)⟩
  haveI : Nonempty (Frags ℝ M) := ⟨⟨⟨0, 0, 0, 0⟩, ⟨0, 0, none, 0⟩, 0, 0, 0, Classical.arbitrary M⟩⟩
  obtain ⟨p1, p2⟩ := reg_pair t h.dZ h.masses c.ac c.zc
  set g : Pair → Rnd ℝ (Frags ℝ M) := fun p => tkeLoop v fuel a0 c p fuel >>= fun r => Rnd.lift (v.mtab p.zl p.al) >>= fun ml =>
    Rnd.lift (v.mtab p.zh p.ah) >>= fun mh =>
      pure ⟨p, r.2.1, r.1, (kinetic amu r.1 p ml mh).1, (kinetic amu r.1 p ml mh).2, r.2.2⟩ with hg
  have e : sample v amu t fuel a0 c = (pair t c.ac c.zc >>= g) := rfl
  have hl : ∀ p, Local (g p) := fun p => local_bind (loop_any h p fuel).1 fun _ => local_bind (CGMF.Isotropy.local_lift _) fun _ =>
    local_bind (CGMF.Isotropy.local_lift _) fun _ => local_pure _
  have hs : ∀ p, SM (g p) := by
    intro p
    refine sm_bind (loop_any h p fuel).1 (loop_any h p fuel).2 ?_
    refine JM.bind (g := fun y : (ℝ × Exc ℝ × M) × ℝ => Rnd.lift (v.mtab p.zh p.ah) >>= fun mh =>
      pure (⟨p, y.1.2.1, y.1.1, (kinetic amu y.1.1 p y.2 mh).1, (kinetic amu y.1.1 p y.2 mh).2, y.1.2.2⟩ : Frags ℝ M))
      (fun _ => CGMF.Isotropy.local_lift _) (JM.lift ?_) ?_
    · cases v.mtab p.zl p.al with
      | ok x => exact PM.some measurable_const
      | exit => exact PM.none
      | ub => exact PM.none
    refine JM.bind (g := fun y : ((ℝ × Exc ℝ × M) × ℝ) × ℝ =>
      pure (⟨p, y.1.1.2.1, y.1.1.1, (kinetic amu y.1.1.1 p y.1.2 y.2).1, (kinetic amu y.1.1.1 p y.1.2 y.2).2, y.1.1.2.2⟩ : Frags ℝ M))
      (fun _ => CGMF.Isotropy.local_lift _) (JM.lift ?_) ?_
    · cases v.mtab p.zh p.ah with
      | ok x => exact PM.some measurable_const
      | exit => exact PM.none
      | ub => exact PM.none
    apply JM.pure
    refine measurable_comap_iff.mpr ?_
    show Measurable fun y : ((ℝ × Exc ℝ × M) × ℝ) × ℝ => (p, y.1.1.1, y.1.1.2.1)
    exact measurable_const.prodMk ((measurable_fst.comp (measurable_fst.comp measurable_fst)).prodMk
      (measurable_fst.comp (measurable_snd.comp (measurable_fst.comp measurable_fst))))
  rw [e]
  exact ⟨local_bind p1 hl, sm_bind p1 (sm_of_meas p2) (jm_discrete hs)⟩

theorem measurable_kept : MeasurableSet {f : Frags ℝ M | f.x.ul ≠ 0 ∧ f.x.uh ≠ 0} := by
  have h1 : Measurable fun x : Exc ℝ => x.ul := measurable_fst.comp measurable_enc
  have h2 : Measurable fun x : Exc ℝ => x.uh := (measurable_fst.comp measurable_snd).comp measurable_enc
  have hx : Measurable fun f : Frags ℝ M => f.x := measurable_snd.comp (measurable_snd.comp measurable_shown)
  exact (measurableSet_eq_fun (h1.comp hx) measurable_const).compl.inter (measurableSet_eq_fun (h2.comp hx) measurable_const).compl

/-- Fissions with tables chosen by a discrete choice. -/
theorem sm_event {ι : Type} [Countable ι] [Nonempty ι] [Nonempty M] {left : Rnd ℝ ι} (hl : Local left) (hm : Meas left) (y : ι → Comp ℝ × Tab ℝ × Env ℝ M)
    (h : ∀ i, Tame (y i).2.2 (y i).2.1 a0 (y i).1) : ∀ n, Local (event amu (left >>= fun i => pure (y i)) fuel a0 n) ∧
      SM (event amu (left >>= fun i => pure (y i)) fuel a0 n)
  | 0 => ⟨fun s a s' hs => (by cases hs), fun n => PM.none⟩
  | n + 1 => by
    obtain ⟨i1, i2⟩ := sm_event hl hm y h n
    have e : event amu (left >>= fun i => pure (y i)) fuel a0 (n + 1) = (left >>= fun i => sample (y i).2.2 amu (y i).2.1 fuel a0 (y i).1 >>= fun f =>
        if f.x.ul ≠ 0 ∧ f.x.uh ≠ 0 then pure ((y i).1, f) else event amu (left >>= fun i => pure (y i)) fuel a0 n) := by
      rw [event]
      rw [bind_assoc_rnd]
      rfl
    rw [e]
    let _ : MeasurableSpace ι := ⊤
    haveI : Nonempty (Frags ℝ M) := ⟨⟨⟨0, 0, 0, 0⟩, ⟨0, 0, none, 0⟩, 0, 0, 0, Classical.arbitrary M⟩⟩
    haveI : Nonempty (Comp ℝ) := ⟨(y (Classical.arbitrary ι)).1⟩
    refine ⟨local_bind hl fun i => local_bind (sm_sample (h i)).1 fun f => ?_, sm_bind hl (sm_of_meas hm) (jm_discrete fun i => ?_)⟩
    · split
      · exact local_pure _
      · exact i1
    · exact sm_bind (sm_sample (h i)).1 (sm_sample (h i)).2 (JM.ite measurable_kept (JM.pure measurable_prodMk_left) (jm_const i2))

/-- A set of fissions described by the fissioning nucleus and what the file shows. -/
theorem measurable_fissions {A : Set (Comp ℝ × Frags ℝ M)} (B : Comp ℝ → Set (Pair × ℝ × Exc ℝ)) (hB : ∀ c, MeasurableSet (B c))
    (hA : A = {e | (e.2.p, e.2.tke, e.2.x) ∈ B e.1}) (c : Comp ℝ) : MeasurableSet {f : Frags ℝ M | (c, f) ∈ A} := by
  rw [hA]
  exact measurable_shown (hB c)

/-- Such sets can be observed. -/
theorem observable_event {ι : Type} [Countable ι] [Nonempty ι] [Nonempty M] {left : Rnd ℝ ι} (hl : Local left) (hm : Meas left)
    (y : ι → Comp ℝ × Tab ℝ × Env ℝ M) (h : ∀ i, Tame (y i).2.2 (y i).2.1 a0 (y i).1) {A : Set (Comp ℝ × Frags ℝ M)}
    (hA : MeasurableSet A) (n : Nat) : Observable (event amu (left >>= fun i => pure (y i)) fuel a0 n) A := by
  obtain ⟨h1, h2⟩ := sm_event (amu := amu) (fuel := fuel) hl hm y h n
  refine ⟨h1, fun k => ?_⟩
  have := h2 k A hA
  simpa only [outAt_eq, At, Set.mem_ofPred_eq] using this

end

/-! ## The choices of the object -/

theorem reg_number (m : Multi ℝ) (N : Nat) (hN : (N : Int) = m.nemit + 1) : Local (number m) ∧ Meas (number m) :=
  ⟨local_loop (loop_number m N hN) fun _ => local_pure _, meas_loop (loop_number m N hN) fun _ => meas_pure _⟩

/-- The choice between pre-equilibrium and evaporation, after the number. -/
noncomputable def flag (f : ℝ) (n : Int) : Rnd ℝ (Int × Bool) :=
  if n = 0 then pure (0, false) else Rnd.draw >>= fun r => if r ∈ {r : ℝ | r ≤ max f 0} then pure (n, true) else pure (n, false)

theorem start_eq (m : Multi ℝ) (f : ℝ) : start m f = number m >>= flag f := by
  unfold start
  congr 1
  funext n
  unfold flag
  split
  · rfl
  · congr 1
    funext r
    have hc : (if f < 0 then 0 else f) = max f 0 := by
      split
      · rw [max_eq_right (by linarith)]
      · rw [max_eq_left (by linarith)]
    rw [hc]
    by_cases hr : r ≤ max f 0
    · rw [if_pos (show r ∈ {r : ℝ | r ≤ max f 0} from hr), decide_eq_true hr]
    · rw [if_neg (show r ∉ {r : ℝ | r ≤ max f 0} from hr), decide_eq_false hr]

theorem meas_flag (f : ℝ) (n : Int) : Meas (flag f n) := by
  unfold flag
  split
  · exact meas_pure _
  · exact meas_branch measurableSet_Iic (meas_pure _) (meas_pure _)

theorem local_flag (f : ℝ) (n : Int) : Local (flag f n) := by
  unfold flag
  split
  · exact local_pure _
  · refine local_bind CGMF.Isotropy.local_draw fun r => ?_
    split <;> exact local_pure _

theorem reg_start (m : Multi ℝ) (N : Nat) (hN : (N : Int) = m.nemit + 1) (f : ℝ) : Local (start m f) ∧ Meas (start m f) := by
  obtain ⟨h1, h2⟩ := reg_number m N hN
  rw [start_eq]
  exact ⟨local_bind h1 (local_flag f), meas_bind h1 h2 (meas_flag f)⟩

theorem prob_flag {f : ℝ} (hf : f ≤ 1) (n : Int) (k : Int × Bool) : prob (flag f n) k =
    if k.1 = n then (if n = 0 then (if k.2 then 0 else 1) else ENNReal.ofReal (if k.2 then max f 0 else 1 - max f 0)) else 0 := by
  obtain ⟨i, b⟩ := k
  unfold flag
  by_cases hn : n = 0
  · subst hn
    rw [if_pos rfl]
    by_cases hi : i = 0
    · subst hi
      cases b
      · simp [prob_pure_self]
      · simp only [if_true]
        exact prob_pure_ne (by simp)
    · simp only [if_neg hi]
      exact prob_pure_ne (by simpa using fun h => absurd h.symm hi)
  · rw [if_neg hn, prob_branch (show MeasurableSet {r : ℝ | r ≤ max f 0} from measurableSet_Iic) (meas_pure _) (meas_pure _),
      (unif_le (le_max_right f 0) (max_le hf zero_le_one)).1, (unif_le (le_max_right f 0) (max_le hf zero_le_one)).2]
    by_cases hi : i = n
    · subst hi
      simp only [if_true, if_neg hn]
      cases b
      · rw [prob_pure_ne (by simp), prob_pure_self]
        simp
      · rw [prob_pure_self, prob_pure_ne (a := (i, false)) (by simp)]
        simp
    · simp only [if_neg hi]
      rw [prob_pure_ne (by simpa using fun h => absurd h.symm hi), prob_pure_ne (by simpa using fun h => absurd h.symm hi)]
      simp

theorem prob_start {m : Multi ℝ} {N : Nat} {P : Nat → ℝ} (h : Chances m N P) {f : ℝ} (hf : f ≤ 1) (n : Nat) (b : Bool) :
    prob (start m f) (n, b) = if n < N then chance N P n * (if n = 0 then (if b then 0 else 1)
      else ENNReal.ofReal (if b then max f 0 else 1 - max f 0)) else 0 := by
  have hpm : 0 < m.pmax := by
    by_contra hc
    have : ∑ l ∈ Finset.range N, P l ≤ 0 := Finset.sum_nonpos fun l hl =>
      (h.below l (Finset.mem_range.mp hl)).trans (not_lt.mp hc)
    linarith [h.some]
  rw [start_eq, prob_loop (loop_bind (loop_number m N h.size) (flag f)) (meas_flag f) hpm P (fun i hi => by
    rw [zero_add, readAt_ok_iff, Int.toNat_natCast]; exact ⟨by omega, h.read i hi⟩) h.nonneg h.below h.some]
  split
  · rename_i hn
    rw [Finset.sum_eq_single n]
    · rw [prob_flag hf]
      simp only [zero_add, if_true, Nat.cast_eq_zero]
      rfl
    · intro i _ hi
      rw [prob_flag hf, if_neg (by simp only [zero_add]; omega), mul_zero]
    · intro hc
      exact absurd (Finset.mem_range.mpr hn) hc
  · rename_i hn
    refine Finset.sum_eq_zero fun i hi => ?_
    rw [Finset.mem_range] at hi
    rw [prob_flag hf, if_neg (by simp only [zero_add]; omega), mul_zero]

theorem prob_start_neg {m : Multi ℝ} {N : Nat} {P : Nat → ℝ} (h : Chances m N P) {f : ℝ} (hf : f ≤ 1) {n : Int} (hn : n < 0) (b : Bool) :
    prob (start m f) (n, b) = 0 := by
  have hpm : 0 < m.pmax := by
    by_contra hc
    have : ∑ l ∈ Finset.range N, P l ≤ 0 := Finset.sum_nonpos fun l hl =>
      (h.below l (Finset.mem_range.mp hl)).trans (not_lt.mp hc)
    linarith [h.some]
  rw [start_eq, prob_loop (loop_bind (loop_number m N h.size) (flag f)) (meas_flag f) hpm P (fun i hi => by
    rw [zero_add, readAt_ok_iff, Int.toNat_natCast]; exact ⟨by omega, h.read i hi⟩) h.nonneg h.below h.some]
  refine Finset.sum_eq_zero fun i hi => ?_
  rw [prob_flag hf, if_neg (by simp only [zero_add]; omega), mul_zero]

/-- The two values of the flag together. -/
theorem prob_start_both {m : Multi ℝ} {N : Nat} {P : Nat → ℝ} (h : Chances m N P) {f : ℝ} (hf : f ≤ 1) {n : Nat} (hn : n < N) :
    prob (start m f) (n, true) + prob (start m f) (n, false) = chance N P n := by
  rw [prob_start h hf, prob_start h hf, if_pos hn, if_pos hn]
  by_cases h0 : n = 0
  · simp [h0]
  · simp only [if_neg h0, if_true, ← mul_add]
    rw [if_neg (by simp), ← ENNReal.ofReal_add (le_max_right f 0) (by linarith [max_le hf zero_le_one])]
    simp

end CGMF.Law

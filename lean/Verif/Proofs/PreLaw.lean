import Verif.Spec.PrefissionLaw
import Verif.Spec.LawIn
import Verif.Proofs.PreEnergy
import Verif.Proofs.Isotropy
import Verif.Props.Law
import Verif.Proofs.OneDraw

/-! # Law of the pre-fission neutrons -/

namespace CGMF.Law

open MeasureTheory CGMF.Pre CGMF.Spec CGMF.Props

variable {α β : Type}

theorem bind_assoc_rnd {γ : Type} (x : Rnd ℝ α) (f : α → Rnd ℝ β) (g : β → Rnd ℝ γ) :
    ((x >>= f) >>= g) = x >>= fun a => f a >>= g := by
  funext s
  simp only [Rnd.bind_run]
  cases x s <;> rfl

open scoped Classical in
/-- Ends normally exactly when `f` ends in `S`. -/
noncomputable def mark (f : Rnd ℝ α) (S : Set α) : Rnd ℝ Unit := f >>= fun a => if a ∈ S then pure () else Rnd.undef

theorem mark_ok {f : Rnd ℝ α} {S : Set α} {s s' : List ℝ} : mark f S s = .ok ((), s') ↔ ∃ a ∈ S, f s = .ok (a, s') := by
  unfold mark
  rw [Rnd.bind_ok]
  constructor
  · rintro ⟨a, s1, h1, h2⟩
    by_cases h : a ∈ S
    · rw [if_pos h] at h2
      cases h2
      exact ⟨a, h, h1⟩
    · rw [if_neg h] at h2
      cases h2
  · rintro ⟨a, h, h1⟩
    exact ⟨a, s', h1, by rw [if_pos h]; rfl⟩

theorem probIn_mark (f : Rnd ℝ α) (S : Set α) : probIn f S = prob (mark f S) () := by
  unfold probIn prob
  congr 1
  ext ω
  simp only [Set.mem_ofPred_eq, mark_ok]
  exact ⟨fun ⟨n, a, h1, h2⟩ => ⟨n, a, h2, h1⟩, fun ⟨n, a, h1, h2⟩ => ⟨n, a, h2, h1⟩⟩

theorem local_undef' : Local (Rnd.undef : Rnd ℝ α) := by
  intro s a s' h
  cases h

theorem meas_undef : Meas (Rnd.undef : Rnd ℝ α) := meas_none fun s a s' h => by cases h

theorem prob_undef (a : α) : prob (Rnd.undef : Rnd ℝ α) a = 0 := by
  unfold prob
  rw [show {ω : ℕ → ℝ | ∃ n, (Rnd.undef : Rnd ℝ α) (pre ω n) = .ok (a, [])} = ∅ by
    ext ω
    simp [Rnd.undef]]
  exact measure_empty

open scoped Classical in
/-- A draw that must fall into `R`, followed by `h`. -/
noncomputable def gate (R : Set ℝ) (h : Rnd ℝ α) : Rnd ℝ α := Rnd.draw >>= fun r => if r ∈ R then h else Rnd.undef

theorem gate_ok {R : Set ℝ} {h : Rnd ℝ α} {s s' : List ℝ} {a : α} :
    gate R h s = .ok (a, s') ↔ ∃ r ∈ R, ∃ t, s = r :: t ∧ h t = .ok (a, s') := by
  unfold gate
  rw [Rnd.bind_ok]
  constructor
  · rintro ⟨r, t, h1, h2⟩
    rw [Rnd.draw_ok] at h1
    by_cases hr : r ∈ R
    · rw [if_pos hr] at h2
      exact ⟨r, hr, t, h1, h2⟩
    · rw [if_neg hr] at h2
      cases h2
  · rintro ⟨r, hr, t, h1, h2⟩
    exact ⟨r, t, Rnd.draw_ok.mpr h1, by rw [if_pos hr]; exact h2⟩

theorem local_gate {R : Set ℝ} {h : Rnd ℝ α} (hl : Local h) : Local (gate R h) := by
  intro s a s' hs
  obtain ⟨r, hr, t, rfl, h2⟩ := gate_ok.mp hs
  obtain ⟨p, rfl, hp⟩ := hl _ _ _ h2
  exact ⟨r :: p, rfl, fun u => gate_ok.mpr ⟨r, hr, p ++ u, rfl, hp u⟩⟩

theorem pre_succ (ω : ℕ → ℝ) (n : Nat) : pre ω (n + 1) = ω 0 :: pre (shift 1 ω) n := by
  rw [show n + 1 = 1 + n by omega, pre_add]
  rfl

theorem at_gate {R : Set ℝ} {h : Rnd ℝ α} (a : α) (n : Nat) (ω : ℕ → ℝ) :
    gate R h (pre ω (n + 1)) = .ok (a, []) ↔ ω 0 ∈ R ∧ h (pre (shift 1 ω) n) = .ok (a, []) := by
  rw [gate_ok, pre_succ]
  constructor
  · rintro ⟨r, hr, t, e, h2⟩
    cases e
    exact ⟨hr, h2⟩
  · rintro ⟨hr, h2⟩
    exact ⟨_, hr, _, rfl, h2⟩

theorem at_gate_zero {R : Set ℝ} {h : Rnd ℝ α} (a : α) (ω : ℕ → ℝ) : ¬ gate R h (pre ω 0) = .ok (a, []) := by
  rw [gate_ok]
  rintro ⟨r, _, t, e, _⟩
  simp [pre] at e

theorem meas_gate {R : Set ℝ} {h : Rnd ℝ α} (hR : MeasurableSet R) (hm : Meas h) : Meas (gate R h) := by
  intro a n
  cases n with
  | zero =>
    rw [show At (gate R h) a 0 = ∅ by
      ext ω
      simp only [At, Set.mem_ofPred_eq, Set.mem_empty_iff_false, iff_false]
      exact at_gate_zero a ω]
    exact MeasurableSet.empty
  | succ n =>
    rw [show At (gate R h) a (n + 1) = (fun ω : ℕ → ℝ => ω 0) ⁻¹' R ∩ shift 1 ⁻¹' At h a n by
      ext ω
      simp only [At, Set.mem_ofPred_eq, Set.mem_inter_iff, Set.mem_preimage]
      exact at_gate a n ω]
    exact (measurable_pi_apply 0 hR).inter (measurable_shift 1 (hm a n))

theorem prob_gate {R : Set ℝ} {h : Rnd ℝ α} (hR : MeasurableSet R) (hm : Meas h) (a : α) :
    prob (gate R h) a = unif R * prob h a := by
  have e : {ω : ℕ → ℝ | ∃ n, gate R h (pre ω n) = .ok (a, [])} =
      (fun ω : ℕ → ℝ => ω 0) ⁻¹' R ∩ shift 1 ⁻¹' {ω | ∃ n, h (pre ω n) = .ok (a, [])} := by
    ext ω
    simp only [Set.mem_ofPred_eq, Set.mem_inter_iff, Set.mem_preimage]
    constructor
    · rintro ⟨n, hn⟩
      cases n with
      | zero => exact absurd hn (at_gate_zero a ω)
      | succ n =>
        obtain ⟨h1, h2⟩ := (at_gate a n ω).mp hn
        exact ⟨h1, n, h2⟩
    · rintro ⟨h1, n, h2⟩
      exact ⟨n + 1, (at_gate a n ω).mpr ⟨h1, h2⟩⟩
  unfold prob
  have m0 : MeasurableSet ((fun ω : ℕ → ℝ => ω 0) ⁻¹' R) := measurable_pi_apply 0 hR
  rw [e, indep _ (prob_meas hm a) 1 _ m0 (fun ω ω' hw => by
    simp only [Set.mem_preimage]
    rw [hw 0 (by omega)])]
  congr 1
  rw [stream_eq m0]
  simp only [Set.mem_preimage, cons]
  have : ∀ r : ℝ, stream {ω : ℕ → ℝ | r ∈ R} = R.indicator 1 r := by
    intro r
    by_cases hr : r ∈ R
    · simp [hr]
    · simp [hr]
  simp only [this]
  rw [lintegral_indicator_one hR]

theorem loop_bind {lo : Int} {N : Nat} {M : ℝ} {rd : Int → Res ℝ} {f : Rnd ℝ Int} (h : Loop lo N M rd (fun k => pure k) f)
    (g : Int → Rnd ℝ α) : Loop lo N M rd g (f >>= g) := by
  constructor
  intro s
  have e : f = attempt lo N M rd >>= fun o => match o with | none => f | some k => pure k := funext h.step
  calc (f >>= g) s = ((attempt lo N M rd >>= fun o => match o with | none => f | some k => pure k) >>= g) s := by rw [← e]
    _ = _ := by
      rw [bind_assoc_rnd]
      simp only [Rnd.bind_run]
      cases attempt lo N M rd s with
      | ok p =>
        obtain ⟨o, t⟩ := p
        cases o <;> rfl
      | _ => rfl

theorem getD_in {xs : List ℝ} {i : Nat} (h : i < xs.length) : xs.getD i 0 = xs[i] := by
  rw [List.getD_eq_getElem?_getD, List.getElem?_eq_getElem h, Option.getD_some]

theorem maxSpec_spec (sp : List ℝ) : ∀ (m lo : Nat) (mx : ℝ), lo + m ≤ sp.length → ∃ v, maxSpec sp lo m mx = .ok v ∧ mx ≤ v ∧
    ∀ j < m, sp.getD (lo + j) 0 ≤ v := by
  intro m
  induction m with
  | zero => intro lo mx _; exact ⟨mx, rfl, le_rfl, fun j hj => by omega⟩
  | succ m ih =>
    intro lo mx h
    rw [maxSpec, readAt_in (by omega) (by simpa using (by omega : lo < sp.length))]
    obtain ⟨v, h1, h2, h3⟩ := ih (lo + 1) (if mx < sp[lo] then sp[lo] else mx) (by omega)
    refine ⟨v, by simpa [Res.bind] using h1, ?_, ?_⟩
    · refine le_trans ?_ h2
      split
      · rename_i hlt; exact hlt.le
      · exact le_rfl
    · intro j hj
      cases j with
      | zero =>
        refine le_trans ?_ h2
        rw [Nat.add_zero, getD_in (by omega)]
        split
        · exact le_rfl
        · rename_i hlt; exact not_lt.mp hlt
      | succ j =>
        have := h3 j (by omega)
        rwa [show lo + 1 + j = lo + (j + 1) by omega] at this

/-- A bin taken in proportion to the spectrum, and what follows. -/
theorem prob_pick {sp : List ℝ} {lo m : Nat} {mx : ℝ} {g : Int → Rnd ℝ α} (hg : ∀ k, Meas (g k)) (hlen : lo + m ≤ sp.length)
    (h0 : ∀ j < m, 0 ≤ sp.getD (lo + j) 0) (hs : 0 < ∑ j ∈ Finset.range m, sp.getD (lo + j) 0)
    (hM : ∀ j < m, sp.getD (lo + j) 0 ≤ mx) (a : α) :
    prob (pickBin sp lo m mx >>= g) a =
      ∑ j ∈ Finset.range m, portion (fun j => sp.getD (lo + j) 0) m j * prob (g ((lo : Int) + j)) a := by
  have hpm : 0 < mx := by
    by_contra hc
    have : ∑ l ∈ Finset.range m, sp.getD (lo + l) 0 ≤ 0 := Finset.sum_nonpos fun l hl =>
      (hM l (Finset.mem_range.mp hl)).trans (not_lt.mp hc)
    linarith
  exact prob_loop (loop_bind (loop_pickBin sp lo m mx) g) hg hpm _ (fun i hi => by
    rw [readAt_ok_iff]
    refine ⟨by omega, ?_⟩
    rw [show ((lo : Int) + (i : Int)).toNat = lo + i by omega, getD_in (by omega)]
    exact List.getElem?_eq_getElem (by omega)) h0 hM hs a

theorem reg_pickBin (sp : List ℝ) (lo : Int) (m : Nat) (mx : ℝ) : Local (pickBin sp lo m mx) ∧ Meas (pickBin sp lo m mx) :=
  ⟨local_loop (loop_pickBin sp lo m mx) fun _ => local_pure _, meas_loop (loop_pickBin sp lo m mx) fun _ => meas_pure _⟩

/-- The random position inside the bin. -/
theorem unif_smear (y : Sys ℝ) (hw : 0 < y.w) (e : ℝ) {A : Set ℝ} (hA : MeasurableSet A) :
    unif {r | smear y e r ∈ A} = share y.w e A := by
  have m1 : Measurable fun r : ℝ => smear y e r := by unfold smear; fun_prop
  unfold unif share
  rw [Measure.restrict_apply (show MeasurableSet {r | smear y e r ∈ A} from m1 hA)]
  have : {r | smear y e r ∈ A} ∩ Set.Ico 0 1 =
      (fun r : ℝ => -y.w * r) ⁻¹' ((fun x => x + (e + y.w / 2)) ⁻¹' (A ∩ Set.Ioc (e - y.w / 2) (e + y.w / 2))) := by
    ext r
    have h1 : smear y e r = -y.w * r + (e + y.w / 2) := by unfold smear; ring
    simp only [Set.mem_inter_iff, Set.mem_ofPred_eq, Set.mem_preimage, h1, Set.mem_Ico, Set.mem_Ioc]
    refine and_congr_right fun _ => ?_
    constructor
    · rintro ⟨a, b⟩
      constructor <;> nlinarith
    · rintro ⟨a, b⟩
      constructor
      · by_contra hc; nlinarith
      · by_contra hc; nlinarith
  rw [this, Real.volume_preimage_mul_left (neg_ne_zero.mpr hw.ne'), measure_preimage_add_right, abs_inv, abs_neg, abs_of_pos hw,
    ENNReal.ofReal_inv_of_pos hw, mul_comm, ENNReal.div_eq_inv_mul, mul_comm]

/-! ## Computations with the same results -/

/-- The same normal results. -/
def Same (f g : Rnd ℝ α) : Prop := ∀ s a s', f s = .ok (a, s') ↔ g s = .ok (a, s')

theorem Same.at {f g : Rnd ℝ α} (h : Same f g) (a : α) (n : Nat) : At f a n = At g a n := by
  ext ω
  exact h _ _ _

theorem Same.meas {f g : Rnd ℝ α} (h : Same f g) (hg : Meas g) : Meas f := fun a n => by
  rw [h.at]
  exact hg a n

theorem Same.local {f g : Rnd ℝ α} (h : Same f g) (hg : Local g) : Local f := fun s a s' hs => by
  obtain ⟨p, h1, h2⟩ := hg _ _ _ ((h _ _ _).mp hs)
  exact ⟨p, h1, fun t => (h _ _ _).mpr (h2 t)⟩

theorem Same.prob {f g : Rnd ℝ α} (h : Same f g) (a : α) : prob f a = prob g a := by
  unfold Law.prob
  congr 1
  ext ω
  exact exists_congr fun n => h _ _ _

theorem Same.refl (f : Rnd ℝ α) : Same f f := fun _ _ _ => Iff.rfl

theorem Same.bind {f : Rnd ℝ α} {g g' : α → Rnd ℝ β} (h : ∀ a, Same (g a) (g' a)) : Same (f >>= g) (f >>= g') := by
  intro s b s'
  rw [Rnd.bind_ok, Rnd.bind_ok]
  exact exists_congr fun a => exists_congr fun t => and_congr_right fun _ => h a _ _ _

theorem meas_lift_bind {x : Res α} {g : α → Rnd ℝ β} (h : ∀ a, x = .ok a → Meas (g a)) : Meas (Rnd.lift x >>= g) := by
  cases x with
  | ok a => exact h a rfl
  | exit => exact meas_none fun s a s' hs => by cases hs
  | ub => exact meas_none fun s a s' hs => by cases hs

theorem local_lift_bind {x : Res α} {g : α → Rnd ℝ β} (h : ∀ a, x = .ok a → Local (g a)) : Local (Rnd.lift x >>= g) := by
  cases x with
  | ok a => exact h a rfl
  | exit => exact local_none fun s a s' hs => by cases hs
  | ub => exact local_none fun s a s' hs => by cases hs

/-! ## The later neutrons -/

/-- Energies in the given sets, and a bin in `T`. -/
def ev (As : List (Set ℝ)) (T : Set Int) : Set (List ℝ × Int) :=
  {p | List.Forall₂ (fun e A => e ∈ A) p.1 As ∧ p.2 ∈ T}

open scoped Classical in
/-- `laterAll` with the first neutron split off. -/
noncomputable def laterMark (y : Sys ℝ) (n i m : Nat) (k : Int) (A : Set ℝ) (As : List (Set ℝ)) (T : Set Int) : Rnd ℝ Unit :=
  Rnd.lift (readAt2 y.exc n k) >>= fun x => Rnd.lift (readAt y.barrier n) >>= fun b =>
    if x - b < y.w then (if y.tiny ∈ A then mark (laterAll y n (i + 1) m k) (ev As T) else Rnd.undef)
    else Rnd.lift (maxSpec (y.sp i k) k (⌊(x - b) / y.w⌋ + 1).toNat 0) >>= fun mx =>
      pickBin (y.sp i k) k (⌊(x - b) / y.w⌋ + 1) mx >>= fun kf =>
        Rnd.lift (ecms y (i - 1) k kf) >>= fun e =>
          gate {r | smear y e r ∈ A} (mark (laterAll y n (i + 1) m kf) (ev As T))

theorem later_mark (y : Sys ℝ) (n i m : Nat) (k : Int) (A : Set ℝ) (As : List (Set ℝ)) (T : Set Int) :
    Same (mark (laterAll y n i (m + 1) k) (ev (A :: As) T)) (laterMark y n i m k A As T) := by
  have key : ∀ (p : ℝ × Int) (s s' : List ℝ),
      (∃ q ∈ ev (A :: As) T, (laterAll y n (i + 1) m p.2 >>= fun q => (pure (p.1 :: q.1, q.2) : Rnd ℝ (List ℝ × Int))) s = .ok (q, s')) ↔
        p.1 ∈ A ∧ mark (laterAll y n (i + 1) m p.2) (ev As T) s = .ok ((), s') := by
    intro p s s'
    rw [mark_ok]
    constructor
    · rintro ⟨q, ⟨h1, h2⟩, h3⟩
      obtain ⟨q', t, h4, h5⟩ := Rnd.bind_ok.mp h3
      cases h5
      cases h1 with
      | cons ha hr => exact ⟨ha, q', ⟨hr, h2⟩, h4⟩
    · rintro ⟨ha, q, ⟨h1, h2⟩, h3⟩
      exact ⟨(p.1 :: q.1, q.2), ⟨List.Forall₂.cons (R := fun e A => e ∈ A) ha h1, h2⟩, Rnd.bind_ok.mpr ⟨q, s', h3, rfl⟩⟩
  intro s u s'
  obtain rfl : u = () := rfl
  rw [mark_ok, laterAll]
  have e1 : (∃ a ∈ ev (A :: As) T, (later y n i k >>= fun p => laterAll y n (i + 1) m p.2 >>= fun q =>
      (pure (p.1 :: q.1, q.2) : Rnd ℝ (List ℝ × Int))) s = .ok (a, s')) ↔
      ∃ p t, later y n i k s = .ok (p, t) ∧ p.1 ∈ A ∧ mark (laterAll y n (i + 1) m p.2) (ev As T) t = .ok ((), s') := by
    constructor
    · rintro ⟨a, ha, h⟩
      obtain ⟨p, t, h1, h2⟩ := Rnd.bind_ok.mp h
      obtain ⟨h3, h4⟩ := (key p t s').mp ⟨a, ha, h2⟩
      exact ⟨p, t, h1, h3, h4⟩
    · rintro ⟨p, t, h1, h3, h4⟩
      obtain ⟨a, ha, h2⟩ := (key p t s').mpr ⟨h3, h4⟩
      exact ⟨a, ha, Rnd.bind_ok.mpr ⟨p, t, h1, h2⟩⟩
  refine e1.trans ?_
  unfold later laterMark
  constructor
  · rintro ⟨p, t, h1, h3, h4⟩
    obtain ⟨x, s1, hx, h1⟩ := Rnd.bind_ok.mp h1
    obtain ⟨b, s2, hb, h1⟩ := Rnd.bind_ok.mp h1
    refine Rnd.bind_ok.mpr ⟨x, s1, hx, Rnd.bind_ok.mpr ⟨b, s2, hb, ?_⟩⟩
    by_cases hc : x - b < y.w
    · rw [if_pos hc] at h1 ⊢
      cases h1
      rw [if_pos h3]
      exact h4
    · rw [if_neg hc] at h1 ⊢
      obtain ⟨mx, s3, hm, h1⟩ := Rnd.bind_ok.mp h1
      obtain ⟨kf, s4, hk, h1⟩ := Rnd.bind_ok.mp h1
      obtain ⟨e, s5, he, h1⟩ := Rnd.bind_ok.mp h1
      obtain ⟨r, s6, hr, h1⟩ := Rnd.bind_ok.mp h1
      cases h1
      refine Rnd.bind_ok.mpr ⟨mx, s3, hm, Rnd.bind_ok.mpr ⟨kf, s4, hk, Rnd.bind_ok.mpr ⟨e, s5, he, ?_⟩⟩⟩
      exact gate_ok.mpr ⟨r, h3, t, Rnd.draw_ok.mp hr, h4⟩
  · intro h1
    obtain ⟨x, s1, hx, h1⟩ := Rnd.bind_ok.mp h1
    obtain ⟨b, s2, hb, h1⟩ := Rnd.bind_ok.mp h1
    by_cases hc : x - b < y.w
    · rw [if_pos hc] at h1
      by_cases ht : y.tiny ∈ A
      · rw [if_pos ht] at h1
        refine ⟨(y.tiny, k), s2, Rnd.bind_ok.mpr ⟨x, s1, hx, Rnd.bind_ok.mpr ⟨b, s2, hb, ?_⟩⟩, ht, h1⟩
        rw [if_pos hc]
        rfl
      · rw [if_neg ht] at h1
        cases h1
    · rw [if_neg hc] at h1
      obtain ⟨mx, s3, hm, h1⟩ := Rnd.bind_ok.mp h1
      obtain ⟨kf, s4, hk, h1⟩ := Rnd.bind_ok.mp h1
      obtain ⟨e, s5, he, h1⟩ := Rnd.bind_ok.mp h1
      obtain ⟨r, hr, t, h5, h1⟩ := gate_ok.mp h1
      refine ⟨(smear y e r, kf), t, Rnd.bind_ok.mpr ⟨x, s1, hx, Rnd.bind_ok.mpr ⟨b, s2, hb, ?_⟩⟩, hr, h1⟩
      rw [if_neg hc]
      exact Rnd.bind_ok.mpr ⟨mx, s3, hm, Rnd.bind_ok.mpr ⟨kf, s4, hk, Rnd.bind_ok.mpr ⟨e, s5, he,
        Rnd.bind_ok.mpr ⟨r, t, Rnd.draw_ok.mpr h5, rfl⟩⟩⟩⟩

theorem mark_empty {f : Rnd ℝ α} {S : Set α} (h : ∀ s a s', f s = .ok (a, s') → a ∉ S) : ∀ s u s', mark f S s ≠ .ok (u, s') := by
  intro s u s' hs
  obtain ⟨a, ha, h1⟩ := mark_ok.mp (show mark f S s = .ok ((), s') from hs)
  exact h _ _ _ h1 ha

theorem smear_meas (y : Sys ℝ) (e : ℝ) {A : Set ℝ} (hA : MeasurableSet A) : MeasurableSet {r | smear y e r ∈ A} := by
  have m1 : Measurable fun r : ℝ => smear y e r := by unfold smear; fun_prop
  exact m1 hA

theorem reg_laterAll (y : Sys ℝ) (hw : 0 < y.w) (n : Nat) (T : Set Int) : ∀ (m i : Nat) (k : Int) (As : List (Set ℝ)),
    (∀ A ∈ As, MeasurableSet A) → Local (mark (laterAll y n i m k) (ev As T)) ∧ Meas (mark (laterAll y n i m k) (ev As T)) := by
  classical
  intro m
  induction m with
  | zero =>
    intro i k As _
    have e : mark (laterAll y n i 0 k) (ev As T) = if (([], k) : List ℝ × Int) ∈ ev As T then pure () else Rnd.undef := rfl
    rw [e]
    split
    · exact ⟨local_pure _, meas_pure _⟩
    · exact ⟨local_undef', meas_undef⟩
  | succ m ih =>
    intro i k As hAs
    cases As with
    | nil =>
      have : ∀ s u s', mark (laterAll y n i (m + 1) k) (ev [] T) s ≠ .ok (u, s') := by
        refine mark_empty ?_
        intro s a s' h hc
        rw [laterAll] at h
        obtain ⟨p, t, _, h2⟩ := Rnd.bind_ok.mp h
        obtain ⟨q, t', _, h3⟩ := Rnd.bind_ok.mp h2
        cases h3
        cases hc.1
      exact ⟨local_none this, meas_none this⟩
    | cons A As =>
      have hA := hAs A (by simp)
      have hR : ∀ A ∈ As, MeasurableSet A := fun B hB => hAs B (by simp [hB])
      have hm := later_mark y n i m k A As T
      have hpos : ∀ z : ℝ, ¬ z < y.w → ⌊z / y.w⌋ + 1 = (((⌊z / y.w⌋ + 1).toNat : Nat) : Int) := by
        intro z hz
        have : 0 ≤ ⌊z / y.w⌋ := Int.floor_nonneg.mpr (div_nonneg (by linarith) hw.le)
        omega
      constructor
      · refine hm.local ?_
        unfold laterMark
        refine local_lift_bind fun x _ => local_lift_bind fun b _ => ?_
        split
        · split
          · exact (ih (i + 1) k As hR).1
          · exact local_undef'
        · rename_i hc
          refine local_lift_bind fun mx _ => ?_
          rw [hpos _ hc]
          exact local_bind (reg_pickBin _ _ _ _).1 fun kf => local_lift_bind fun e _ => local_gate (ih (i + 1) kf As hR).1
      · refine hm.meas ?_
        unfold laterMark
        refine meas_lift_bind fun x _ => meas_lift_bind fun b _ => ?_
        split
        · split
          · exact (ih (i + 1) k As hR).2
          · exact meas_undef
        · rename_i hc
          refine meas_lift_bind fun mx _ => ?_
          rw [hpos _ hc]
          exact meas_bind (reg_pickBin _ _ _ _).1 (reg_pickBin _ _ _ _).2 fun kf => meas_lift_bind fun e _ =>
            meas_gate (smear_meas y e hA) (ih (i + 1) kf As hR).2

theorem lift_ok_bind {x : Res α} {a : α} (h : x = .ok a) (g : α → Rnd ℝ β) : (Rnd.lift x >>= g) = g a := by
  rw [h]
  rfl

variable {y : Sys ℝ} {n N : Nat} {E : Nat → ℝ}

theorem openLater_spec (hw : 0 < y.w) {En b : ℝ} {k : Nat} {j : Nat} (hj : j < openLater y.w En b k) :
    b ≤ En - ((k : ℝ) + j) * y.w := by
  unfold openLater at hj
  have h1 : (j : Int) ≤ ⌊(En - k * y.w - b) / y.w⌋ := by omega
  have h2 : (j : ℝ) ≤ (En - k * y.w - b) / y.w := by
    have := Int.le_floor.mp h1
    exact_mod_cast this
  rw [le_div_iff₀ hw] at h2
  nlinarith

theorem prob_laterAll (h : Chained y n N E) {b : ℝ} (hb : y.w ≤ b) (hbar : y.barrier[n]? = some b)
    (hs : SpectraOK y n (E n) b) (X : Set ℝ) : ∀ (As : List (Set ℝ)) (i k : Nat), (∀ A ∈ As, MeasurableSet A) → 2 ≤ i →
    i + As.length ≤ n + 1 → b ≤ E n - k * y.w →
    prob (mark (laterAll y n i As.length k) (ev As {z | ∃ ex, readAt2 y.exc n z = .ok ex ∧ ex ∈ X})) () = laterChance y (E n) b X As i k := by
  classical
  have hw := h.wpos
  intro As
  induction As with
  | nil =>
    intro i k _ _ _ hk
    have hkN : (k : Int) < N := bin_lt h hb (by exact_mod_cast hk)
    have r1 : readAt2 y.exc n (k : Int) = .ok (E n - k * y.w) := by
      have := exc_reg h (b := b) (by linarith) (i := n) (k := (k : Int)) le_rfl (by omega) hkN (by exact_mod_cast hk)
      simpa using this
    have e : mark (laterAll y n i 0 k) (ev [] {z | ∃ ex, readAt2 y.exc n z = .ok ex ∧ ex ∈ X}) =
      if (([], (k : Int)) : List ℝ × Int) ∈ ev [] {z : Int | ∃ ex, readAt2 y.exc n z = .ok ex ∧ ex ∈ X} then pure ()
        else Rnd.undef := rfl
    have e2 : (([], (k : Int)) : List ℝ × Int) ∈ ev [] {z : Int | ∃ ex, readAt2 y.exc n z = .ok ex ∧ ex ∈ X} ↔
        E n - k * y.w ∈ X := by
      simp [ev, r1]
    rw [List.length_nil, e, laterChance]
    by_cases hx : E n - k * y.w ∈ X
    · rw [if_pos (e2.mpr hx), if_pos hx, prob_pure_self]
    · rw [if_neg (fun hc => hx (e2.mp hc)), if_neg hx, prob_undef]
  | cons A As ih =>
    intro i k hm hi hin hk
    have hA := hm A (by simp)
    have hR : ∀ A ∈ As, MeasurableSet A := fun B hB => hm B (by simp [hB])
    rw [List.length_cons] at hin ⊢
    have hkN : (k : Int) < N := bin_lt h hb (by exact_mod_cast hk)
    have r1 : readAt2 y.exc n (k : Int) = .ok (E n - k * y.w) := by
      have := exc_reg h (b := b) (by linarith) (i := n) (k := (k : Int)) le_rfl (by omega) hkN (by exact_mod_cast hk)
      simpa using this
    have r2 : readAt y.barrier (n : Int) = .ok b := by
      rw [readAt_ok_iff]; exact ⟨by omega, by simpa using hbar⟩
    rw [(later_mark y n i As.length k A As _).prob, laterChance]
    unfold laterMark
    rw [lift_ok_bind r1, lift_ok_bind r2]
    by_cases hc : E n - k * y.w - b < y.w
    · rw [if_pos hc, if_pos hc]
      by_cases ht : y.tiny ∈ A
      · rw [if_pos ht, if_pos ht, one_mul]
        exact ih (i + 1) k hR (by omega) (by omega) hk
      · rw [if_neg ht, if_neg ht, zero_mul, prob_undef]
    · rw [if_neg hc, if_neg hc]
      set m := openLater y.w (E n) b k with hmd
      have hmm : (⌊(E n - k * y.w - b) / y.w⌋ + 1).toNat = m := rfl
      have hmi : ⌊(E n - k * y.w - b) / y.w⌋ + 1 = (m : Int) := by
        have : 0 ≤ ⌊(E n - k * y.w - b) / y.w⌋ := Int.floor_nonneg.mpr (div_nonneg (by linarith) hw.le)
        omega
      have hlen : k + m ≤ (y.sp i k).length := by
        rw [h.later]
        by_contra hcon
        have hm0 : 0 < m := by
          have : 0 ≤ ⌊(E n - k * y.w - b) / y.w⌋ := Int.floor_nonneg.mpr (div_nonneg (by linarith) hw.le)
          omega
        have h3 := openLater_spec hw (y := y) (En := E n) (b := b) (k := k) (j := m - 1) (by omega)
        have h4 := bin_lt h hb (k := ((k + (m - 1) : Nat) : Int)) (by push_cast; exact_mod_cast h3)
        omega
      obtain ⟨mx, hx1, hx2, hx3⟩ := maxSpec_spec (y.sp i k) m k 0 hlen
      rw [hmm, hmi, lift_ok_bind hx1]
      obtain ⟨s1, s2⟩ := hs.later i hi (by omega) k (not_lt.mp hc)
      rw [prob_pick (fun kf => meas_lift_bind fun e _ => meas_gate (smear_meas y e hA) (reg_laterAll y hw n _ _ _ _ _ hR).2)
        hlen s1 s2 hx3]
      apply Finset.sum_congr rfl
      intro j hj
      rw [mul_assoc]
      congr 1
      have hj' := openLater_spec hw (Finset.mem_range.mp hj)
      have e3 := ecms_reg h hb (i := i - 1) (k0 := k) (k := (k : Int) + j) (by omega) (by omega) (by omega)
        (by push_cast; exact hj')
      rw [lift_ok_bind e3, prob_gate (smear_meas y _ hA) (reg_laterAll y hw n _ _ _ _ _ hR).2, unif_smear y hw _ hA]
      have e4 : (((k : Int) + (j : Int) - (k : Int) : Int) : ℝ) = (j : ℝ) := by push_cast; ring
      rw [e4]
      congr 1
      have := ih (i + 1) (k + j) hR (by omega) (by omega) (by push_cast; exact hj')
      push_cast at this
      exact this

/-! ## All neutrons -/

/-- `energies` with the first neutron split off. -/
noncomputable def allMark (y : Sys ℝ) (n : Nat) (A : Set ℝ) (As : List (Set ℝ)) (X : Set ℝ) (eps : ℝ) : Rnd ℝ Unit :=
  Rnd.lift (maxSpec y.sp1 0 ⌈eps / y.w⌉.toNat 0) >>= fun mx => pickBin y.sp1 0 ⌈eps / y.w⌉ mx >>= fun kf =>
    Rnd.lift (ecms y 0 0 kf) >>= fun e => gate {r | smear y e r ∈ A}
      (mark (laterAll y n 2 (n - 1) kf) (ev As {z | ∃ ex, readAt2 y.exc n z = .ok ex ∧ ex ∈ X}))

theorem all_mark {nemit : Int} (hne : nemit ≠ 0) (hn : 0 < n) {x b : ℝ} (hx : readAt2 y.exc n 0 = .ok x)
    (hb : readAt y.barrier n = .ok b) (h0 : ¬ x - b < 0) (E0 : ℝ) (A : Set ℝ) (As : List (Set ℝ)) (X : Set ℝ) :
    Same (mark (energies y nemit n E0) (InAll (A :: As) X)) (allMark y n A As X (x - b)) := by
  intro s u s'
  obtain rfl : u = () := rfl
  rw [mark_ok, energies, if_neg (by rintro (hc | hc); exacts [hne hc, by omega])]
  rw [lift_ok_bind hx, lift_ok_bind hb, if_neg h0]
  unfold first allMark
  constructor
  · rintro ⟨z, hz, h0⟩
    obtain ⟨p, t, h1, h0⟩ := Rnd.bind_ok.mp h0
    obtain ⟨q, t2, h2, h0⟩ := Rnd.bind_ok.mp h0
    obtain ⟨ex, t3, h3, h4⟩ := Rnd.bind_ok.mp h0
    cases h4
    obtain ⟨mx, s3, hm, h1⟩ := Rnd.bind_ok.mp h1
    obtain ⟨kf, s4, hk, h1⟩ := Rnd.bind_ok.mp h1
    obtain ⟨e, s5, he, h1⟩ := Rnd.bind_ok.mp h1
    obtain ⟨r, s6, hr, h1⟩ := Rnd.bind_ok.mp h1
    cases h1
    obtain ⟨h6, rfl⟩ := Rnd.lift_ok.mp h3
    obtain ⟨es, e1, e2, e3⟩ := hz
    cases e1
    cases e2 with
    | cons ha hrest =>
      refine Rnd.bind_ok.mpr ⟨mx, s3, hm, Rnd.bind_ok.mpr ⟨kf, s4, hk, Rnd.bind_ok.mpr ⟨e, s5, he, ?_⟩⟩⟩
      exact gate_ok.mpr ⟨r, ha, t, Rnd.draw_ok.mp hr, mark_ok.mpr ⟨q, ⟨hrest, ex, h6, e3⟩, h2⟩⟩
  · intro h1
    obtain ⟨mx, s3, hm, h1⟩ := Rnd.bind_ok.mp h1
    obtain ⟨kf, s4, hk, h1⟩ := Rnd.bind_ok.mp h1
    obtain ⟨e, s5, he, h1⟩ := Rnd.bind_ok.mp h1
    obtain ⟨r, hr, t, h5, h1⟩ := gate_ok.mp h1
    obtain ⟨q, ⟨hq, ex, hex, hX⟩, h2⟩ := mark_ok.mp h1
    refine ⟨(some (smear y e r :: q.1), ex), ⟨_, rfl, List.Forall₂.cons (R := fun e A => e ∈ A) hr hq, hX⟩, ?_⟩
    refine Rnd.bind_ok.mpr ⟨(smear y e r, kf), t, ?_, Rnd.bind_ok.mpr ⟨q, s', h2,
      Rnd.bind_ok.mpr ⟨ex, s', Rnd.lift_ok.mpr ⟨hex, rfl⟩, rfl⟩⟩⟩
    exact Rnd.bind_ok.mpr ⟨mx, s3, hm, Rnd.bind_ok.mpr ⟨kf, s4, hk, Rnd.bind_ok.mpr ⟨e, s5, he,
      Rnd.bind_ok.mpr ⟨r, t, Rnd.draw_ok.mpr h5, rfl⟩⟩⟩⟩

theorem openFirst_spec (hw : 0 < y.w) {En b : ℝ} {j : Nat} (hj : j < openFirst y.w En b) : b ≤ En - (j : ℝ) * y.w := by
  unfold openFirst at hj
  have h1 : (j : Int) < ⌈(En - b) / y.w⌉ := by omega
  rw [Int.lt_ceil, lt_div_iff₀ hw] at h1
  push_cast at h1
  linarith

theorem read_top (h : Chained y n N E) {b : ℝ} (hb : y.w ≤ b) (hE : b ≤ E n) : readAt2 y.exc n 0 = .ok (E n) := by
  have hw := h.wpos
  have hN : (0 : Int) < N := bin_lt h hb (by simpa using hE)
  have := exc_reg h (b := b) (by linarith) (i := n) (k := 0) le_rfl le_rfl hN (by simpa using hE)
  simpa using this

theorem read_barrier {b : ℝ} (hbar : y.barrier[n]? = some b) : readAt y.barrier (n : Int) = .ok b := by
  rw [readAt_ok_iff]; exact ⟨by omega, by simpa using hbar⟩

theorem meas_allMark (hw : 0 < y.w) {A : Set ℝ} (hA : MeasurableSet A) {As : List (Set ℝ)} (hAs : ∀ A ∈ As, MeasurableSet A)
    (X : Set ℝ) {eps : ℝ} (h0 : 0 ≤ eps) : Meas (allMark y n A As X eps) := by
  unfold allMark
  refine meas_lift_bind fun mx _ => ?_
  have : ⌈eps / y.w⌉ = ((⌈eps / y.w⌉.toNat : Nat) : Int) := by
    have := Int.ceil_nonneg (div_nonneg h0 hw.le)
    omega
  rw [this]
  exact meas_bind (reg_pickBin _ _ _ _).1 (reg_pickBin _ _ _ _).2 fun kf => meas_lift_bind fun e _ =>
    meas_gate (smear_meas y e hA) (reg_laterAll y hw n _ _ _ _ _ hAs).2

theorem prob_allMark (h : Chained y n N E) {b : ℝ} (hb : y.w ≤ b) (hbar : y.barrier[n]? = some b) (hn : 0 < n)
    (hs : SpectraOK y n (E n) b) (X : Set ℝ) {A : Set ℝ} (hA : MeasurableSet A) {As : List (Set ℝ)} (hlen : As.length + 1 = n)
    (hAs : ∀ A ∈ As, MeasurableSet A) : prob (allMark y n A As X (E n - b)) () = allChance y (E n) b X A As := by
  have hw := h.wpos
  unfold allMark allChance
  set m := openFirst y.w (E n) b with hmd
  have hmm : ⌈(E n - b) / y.w⌉.toNat = m := rfl
  have hm0 : 0 < m := by
    by_contra hc
    have := hs.firstPos
    rw [← hmd, show m = 0 by omega] at this
    simp at this
  have hmi : ⌈(E n - b) / y.w⌉ = (m : Int) := by omega
  have hl : 0 + m ≤ y.sp1.length := by
    rw [h.first]
    by_contra hcon
    have h3 := openFirst_spec hw (y := y) (En := E n) (b := b) (j := m - 1) (by omega)
    have h4 := bin_lt h hb (k := ((m - 1 : Nat) : Int)) (by exact_mod_cast h3)
    omega
  obtain ⟨mx, hx1, hx2, hx3⟩ := maxSpec_spec y.sp1 m 0 0 hl
  rw [hmm, hmi, lift_ok_bind (show maxSpec y.sp1 0 m 0 = .ok mx from hx1)]
  have := prob_pick (sp := y.sp1) (lo := 0) (m := m) (mx := mx)
    (g := fun kf : Int => Rnd.lift (ecms y 0 0 kf) >>= fun e => gate {r | smear y e r ∈ A}
      (mark (laterAll y n 2 (n - 1) kf) (ev As {z | ∃ ex, readAt2 y.exc n z = .ok ex ∧ ex ∈ X})))
    (fun kf => meas_lift_bind fun e _ => meas_gate (smear_meas y e hA) (reg_laterAll y hw n _ _ _ _ _ hAs).2)
    hl (fun j hj => by rw [Nat.zero_add]; exact hs.first j hj) (by simpa using hs.firstPos) hx3 ()
  refine Eq.trans this ?_
  simp only [Nat.zero_add]
  apply Finset.sum_congr rfl
  intro j hj
  rw [mul_assoc]
  congr 1
  have hj' := openFirst_spec hw (y := y) (Finset.mem_range.mp hj)
  have e3 := ecms_reg h hb (i := 0) (k0 := 0) (k := ((0 : Nat) : Int) + j) hn le_rfl (by omega) (by push_cast; simpa using hj')
  rw [lift_ok_bind e3, prob_gate (smear_meas y _ hA) (reg_laterAll y hw n _ _ _ _ _ hAs).2, unif_smear y hw _ hA]
  have e4 : ((((0 : Nat) : Int) + (j : Int) - 0 : Int) : ℝ) = (j : ℝ) := by push_cast; ring
  rw [e4]
  congr 1
  have := prob_laterAll h hb hbar hs X As 2 j hAs le_rfl (by omega) hj'
  rw [show n - 1 = As.length by omega]
  push_cast at this ⊢
  rw [zero_add]
  exact this

/-! ## A draw that decides between two continuations -/

open scoped Classical in
theorem same_branch {R : Set ℝ} {f g : Rnd ℝ α} {s s' : List ℝ} {a : α} :
    (Rnd.draw >>= fun r => if r ∈ R then f else g) s = .ok (a, s') ↔ gate R f s = .ok (a, s') ∨ gate Rᶜ g s = .ok (a, s') := by
  rw [gate_ok, gate_ok, Rnd.bind_ok]
  constructor
  · rintro ⟨r, t, h1, h2⟩
    rw [Rnd.draw_ok] at h1
    by_cases hr : r ∈ R
    · rw [if_pos hr] at h2
      exact Or.inl ⟨r, hr, t, h1, h2⟩
    · rw [if_neg hr] at h2
      exact Or.inr ⟨r, hr, t, h1, h2⟩
  · rintro (⟨r, hr, t, h1, h2⟩ | ⟨r, hr, t, h1, h2⟩)
    · exact ⟨r, t, Rnd.draw_ok.mpr h1, by rw [if_pos hr]; exact h2⟩
    · exact ⟨r, t, Rnd.draw_ok.mpr h1, by rw [if_neg hr]; exact h2⟩

theorem gate_head {R : Set ℝ} {f : Rnd ℝ α} {ω : ℕ → ℝ} {n : Nat} {a : α} (h : gate R f (pre ω n) = .ok (a, [])) : ω 0 ∈ R := by
  cases n with
  | zero => exact absurd h (at_gate_zero a ω)
  | succ n => exact ((at_gate a n ω).mp h).1

open scoped Classical in
theorem meas_branch {R : Set ℝ} (hR : MeasurableSet R) {f g : Rnd ℝ α} (hf : Meas f) (hg : Meas g) :
    Meas (Rnd.draw >>= fun r => if r ∈ R then f else g) := by
  intro a n
  rw [show At (Rnd.draw >>= fun r => if r ∈ R then f else g) a n = At (gate R f) a n ∪ At (gate Rᶜ g) a n by
    ext ω
    simp only [At, Set.mem_ofPred_eq, Set.mem_union]
    exact same_branch]
  exact (meas_gate hR hf a n).union (meas_gate hR.compl hg a n)

open scoped Classical in
theorem prob_branch {R : Set ℝ} (hR : MeasurableSet R) {f g : Rnd ℝ α} (hf : Meas f) (hg : Meas g) (a : α) :
    prob (Rnd.draw >>= fun r => if r ∈ R then f else g) a = unif R * prob f a + unif Rᶜ * prob g a := by
  rw [← prob_gate hR hf, ← prob_gate hR.compl hg]
  unfold prob
  rw [← measure_union _ (prob_meas (meas_gate hR.compl hg) a)]
  · congr 1
    ext ω
    simp only [Set.mem_ofPred_eq, Set.mem_union]
    rw [← exists_or]
    exact exists_congr fun n => same_branch
  · rw [Set.disjoint_left]
    rintro ω ⟨n, h1⟩ ⟨m, h2⟩
    exact (gate_head h2) (gate_head h1)

theorem unif_le {c : ℝ} (h0 : 0 ≤ c) (h1 : c ≤ 1) : unif {r | r ≤ c} = ENNReal.ofReal c ∧ unif {r | r ≤ c}ᶜ = ENNReal.ofReal (1 - c) := by
  have m : MeasurableSet {r : ℝ | r ≤ c} := measurableSet_Iic
  have e : unif {r | r ≤ c} = ENNReal.ofReal c := by
    rw [← unif_Iio h0 h1]
    unfold unif
    exact measure_congr Iio_ae_eq_Iic.symm
  refine ⟨e, ?_⟩
  rw [prob_compl_eq_one_sub m, e, ← ENNReal.ofReal_one, ← ENNReal.ofReal_sub _ h0]

end CGMF.Law

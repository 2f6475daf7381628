import Verif.Tactics
import Verif.Model.Kinematics
import Verif.Spec.Kinematics
import Verif.Proofs.Event
import Mathlib.Tactic.LinearCombination

/-!
# Lemmas about the kinematics
-/

set_option linter.unusedSectionVars false

namespace CGMF.Kin

open CGMF CGMF.Spec

theorem needs_ok {p : Prop} {s s' : List ℝ} {u : Unit} : needs p s = .ok (u, s') ↔ p ∧ s' = s := by
  classical
  unfold needs
  by_cases h : p
  · simp [h, eq_comm]
  · simp [h]

theorem needs_run {p : Prop} (h : p) (s : List ℝ) : needs p s = .ok ((), s) := by
  classical
  unfold needs
  rw [if_pos h]

theorem sqrtR_ok {x y : ℝ} {s s' : List ℝ} :
    sqrtR x s = .ok (y, s') ↔ 0 ≤ x ∧ y = Real.sqrt x ∧ s' = s := by
  unfold sqrtR
  rw [Rnd.bind_ok]
  constructor
  · rintro ⟨_, s1, h1, h2⟩
    obtain ⟨h3, rfl⟩ := needs_ok.mp h1
    obtain ⟨h4, rfl⟩ := Rnd.pure_ok.mp h2
    exact ⟨h3, h4.symm, rfl⟩
  · rintro ⟨h, rfl, rfl⟩
    exact ⟨(), s', needs_ok.mpr ⟨h, rfl⟩, rfl⟩

theorem sqrtR_run {x : ℝ} (h : 0 ≤ x) (s : List ℝ) : sqrtR x s = .ok (Real.sqrt x, s) :=
  sqrtR_ok.mpr ⟨h, rfl, rfl⟩

theorem dot_sq (v : V3) : dot v v = nsq v := by
  simp [dot, nsq, Fin.sum_univ_three]

theorem nsq_vec (a b c : ℝ) : nsq ![a, b, c] = a * a + b * b + c * c := rfl

theorem nsq_nonneg (v : V3) : 0 ≤ nsq v := by
  unfold nsq; nlinarith [mul_self_nonneg (v 0), mul_self_nonneg (v 1), mul_self_nonneg (v 2)]

theorem mass_ok {k : Const} {z a : Int} {m : ℝ} :
    k.mass z a = .ok m ↔ ∃ e, k.mx z a = .ok e ∧ m = a * k.amu + e := by
  unfold Const.mass
  rw [Res.bind_eq_ok]
  simp [eq_comm]

theorem sampleCos_more (tab : Option (List (ℝ × ℝ))) : sampleCos tab [] = .more := by
  cases tab <;> rfl

/-- Everything a successful emission tells. -/
theorem neutronBoost_ok {k : Const} {z a : Int} {p : V3} {ecm : ℝ} {tab : Option (List (ℝ × ℝ))}
    {s s' : List ℝ} {e : Emit} {p' : V3} (h : neutronBoost k z a p ecm tab s = .ok ((e, p'), s')) :
    ∃ m r c s1, k.mass z a = .ok m ∧ s = r :: s1 ∧ sampleCos tab s1 = .ok (c, s') ∧ m ≠ 0 ∧
      k.mn ≠ 0 ∧ c * c ≤ 1 ∧ 0 ≤ 2 * ecm / k.mn ∧
      e.vcm = ![Real.sqrt (2 * ecm / k.mn) * Real.sqrt (1 - c * c) * Real.cos (k.twopi * r),
        Real.sqrt (2 * ecm / k.mn) * Real.sqrt (1 - c * c) * Real.sin (k.twopi * r),
        Real.sqrt (2 * ecm / k.mn) * c] ∧
      e.v = (fun i => e.vcm i + p i / m) ∧ e.energy = nsq e.v * (1 / 2) * k.mn ∧
      p' = fun i => p i - k.mn * e.v i := by
  unfold neutronBoost at h
  replace h := Rnd.bind_ok.mp h
  obtain ⟨m, s1, h1, h⟩ := h
  obtain ⟨hm, rfl⟩ := Rnd.lift_ok.mp h1
  replace h := Rnd.bind_ok.mp h
  obtain ⟨r, s2, h2, h⟩ := h
  have h2 := Rnd.draw_ok.mp h2
  replace h := Rnd.bind_ok.mp h
  obtain ⟨c, s3, h3, h⟩ := h
  replace h := Rnd.bind_ok.mp h
  obtain ⟨sn, s4, h4, h⟩ := h
  obtain ⟨hc, rfl, rfl⟩ := sqrtR_ok.mp h4
  replace h := Rnd.bind_ok.mp h
  obtain ⟨_, s5, h5, h⟩ := h
  obtain ⟨hmn, rfl⟩ := needs_ok.mp h5
  replace h := Rnd.bind_ok.mp h
  obtain ⟨vn, s6, h6, h⟩ := h
  obtain ⟨hv, rfl, rfl⟩ := sqrtR_ok.mp h6
  replace h := Rnd.bind_ok.mp h
  obtain ⟨_, s7, h7, h⟩ := h
  obtain ⟨hm0, rfl⟩ := needs_ok.mp h7
  obtain ⟨h8, rfl⟩ := Rnd.pure_ok.mp h
  injection h8 with h8 h9
  subst h8
  subst h9
  exact ⟨m, r, c, s2, hm, h2, h3, hm0, hmn, by linarith, hv, rfl, rfl, rfl, rfl⟩

/-- The run of an emission when everything is in its domain. -/
theorem neutronBoost_run {k : Const} {z a : Int} {p : V3} {ecm : ℝ} {tab : Option (List (ℝ × ℝ))}
    {s s1 : List ℝ} {m r c : ℝ} (hm : k.mass z a = .ok m) (hc : sampleCos tab s = .ok (c, s1))
    (hc1 : c * c ≤ 1) (hm0 : m ≠ 0) (hmn : k.mn ≠ 0) (hv : 0 ≤ 2 * ecm / k.mn) :
    ∃ e p', neutronBoost k z a p ecm tab (r :: s) = .ok ((e, p'), s1) ∧
      e.vcm = ![Real.sqrt (2 * ecm / k.mn) * Real.sqrt (1 - c * c) * Real.cos (k.twopi * r),
        Real.sqrt (2 * ecm / k.mn) * Real.sqrt (1 - c * c) * Real.sin (k.twopi * r),
        Real.sqrt (2 * ecm / k.mn) * c] ∧
      e.v = (fun i => e.vcm i + p i / m) ∧ p' = fun i => p i - k.mn * e.v i := by
  unfold neutronBoost
  rw [Rnd.bind_of_ok (Rnd.lift_ok.mpr ⟨hm, rfl⟩), Rnd.bind_of_ok (Rnd.draw_cons r s),
    Rnd.bind_of_ok hc, Rnd.bind_of_ok (sqrtR_run (by linarith) _), Rnd.bind_of_ok (needs_run hmn _),
    Rnd.bind_of_ok (sqrtR_run hv _), Rnd.bind_of_ok (needs_run hm0 _)]
  exact ⟨_, _, rfl, rfl, rfl, rfl⟩

theorem direction_sq (n c r : ℝ) (hc : c * c ≤ 1) :
    nsq ![n * Real.sqrt (1 - c * c) * Real.cos r, n * Real.sqrt (1 - c * c) * Real.sin r, n * c] = n * n := by
  have h1 := Real.mul_self_sqrt (show 0 ≤ 1 - c * c by linarith)
  have h2 := Real.sin_sq_add_cos_sq r
  simp only [nsq, Matrix.cons_val_zero, Matrix.cons_val_one, Matrix.cons_val]
  generalize Real.sqrt (1 - c * c) = t at *
  generalize Real.sin r = a at *
  generalize Real.cos r = b at *
  linear_combination n * n * t * t * h2 + n * n * h1

/-- Momentum carried away by a list of neutrons. -/
noncomputable def carried (m : ℝ) (es : List Emit) : V3 := fun i => (es.map fun e => m * e.v i).sum

theorem carried_nil (m : ℝ) : carried m [] = fun _ => 0 := rfl

theorem carried_cons (m : ℝ) (e : Emit) (es : List Emit) :
    carried m (e :: es) = fun i => m * e.v i + carried m es i := rfl

theorem carried_append (m : ℝ) (es fs : List Emit) :
    carried m (es ++ fs) = fun i => carried m es i + carried m fs i := by
  funext i; simp [carried]

theorem boostNeutrons_ok {k : Const} {z : Int} : ∀ {ns : List ℝ} {a : Int} {p q : V3} {es : List Emit}
    {s s' : List ℝ}, boostNeutrons k z a p ns s = .ok ((es, q), s') →
    es.length = ns.length ∧ (∀ i, p i = q i + carried k.mn es i) ∧
    (∀ (j : Nat) (e : Emit), es[j]? = some e → ∃ ecm m, ns[j]? = some ecm ∧ k.mass z (a - j) = .ok m ∧ m ≠ 0 ∧
      0 ≤ 2 * ecm / k.mn ∧ k.mn ≠ 0 ∧
      nsq e.vcm = 2 * ecm / k.mn ∧ e.energy = nsq e.v * (1 / 2) * k.mn ∧
      ∀ i, e.v i = e.vcm i + (p i - carried k.mn (es.take j) i) / m)
  | [], a, p, q, es, s, s', h => by
    replace h := Rnd.pure_ok.mp h
    obtain ⟨h, rfl⟩ := h
    injection h with h1 h2
    subst h1; subst h2
    simp [carried]
  | x :: ns, a, p, q, es, s, s', h => by
    unfold boostNeutrons at h
    obtain ⟨⟨e, p1⟩, s1, h1, h2⟩ := Rnd.bind_ok.mp h
    obtain ⟨⟨es1, q1⟩, s2, h3, h4⟩ := Rnd.bind_ok.mp h2
    obtain ⟨h5, rfl⟩ := Rnd.pure_ok.mp h4
    injection h5 with h6 h7
    subst h6; subst h7
    obtain ⟨m, r, c, s3, hm, _, _, hm0, hmn, hc, hv, hvcm, hev, hen, hp1⟩ := neutronBoost_ok h1
    obtain ⟨i1, i2, i3⟩ := boostNeutrons_ok h3
    refine ⟨by simp [i1], ?_, ?_⟩
    · intro i
      have := i2 i
      rw [carried_cons]
      simp only [hp1] at this
      linarith
    · intro j e' hj
      cases j with
      | zero =>
        simp only [List.getElem?_cons_zero, Option.some.injEq] at hj
        subst hj
        refine ⟨x, m, rfl, by simpa using hm, hm0, hv, hmn, ?_, hen, ?_⟩
        · rw [hvcm, direction_sq _ _ _ hc]
          exact Real.mul_self_sqrt hv
        · intro i; rw [hev]; simp [carried]
      | succ j =>
        simp only [List.getElem?_cons_succ] at hj
        obtain ⟨ecm, m', j1, j2, j3, j4, j5, j6, j7, j8⟩ := i3 j e' hj
        refine ⟨ecm, m', by simpa using j1, ?_, j3, j4, j5, j6, j7, ?_⟩
        · have : a - (j + 1 : Nat) = a - 1 - (j : Int) := by push_cast; ring
          rw [this]; exact j2
        · intro i
          rw [j8 i, List.take_succ_cons, carried_cons]
          simp only [hp1]
          congr 2
          ring

theorem preLoop_ok {k : Const} {z : Int} {ecm : List ℝ} : ∀ {cnt n : Nat} {a : Int} {p q : V3}
    {es : List Emit} {s s' : List ℝ}, preLoop k z ecm n cnt a p s = .ok ((es, q), s') →
    es.length = cnt ∧ (∀ i, p i = q i + carried k.mn es i) ∧
    (∀ (j : Nat) (e : Emit), es[j]? = some e → ∃ x m, ecm[n + j]? = some x ∧ k.mass z (a - j) = .ok m ∧ m ≠ 0 ∧
      nsq e.vcm = 2 * x / k.mn ∧
      ∀ i, e.v i = e.vcm i + (p i - carried k.mn (es.take j) i) / m)
  | 0, n, a, p, q, es, s, s', h => by
    replace h := Rnd.pure_ok.mp h
    obtain ⟨h, rfl⟩ := h
    injection h with h1 h2
    subst h1; subst h2
    simp [carried]
  | cnt + 1, n, a, p, q, es, s, s', h => by
    unfold preLoop at h
    replace h := Rnd.bind_ok.mp h
    obtain ⟨x, s0, h0, h⟩ := h
    obtain ⟨hx, rfl⟩ := Rnd.lift_ok.mp h0
    obtain ⟨⟨e, p1⟩, s1, h1, h2⟩ := Rnd.bind_ok.mp h
    obtain ⟨⟨es1, q1⟩, s2, h3, h4⟩ := Rnd.bind_ok.mp h2
    obtain ⟨h5, rfl⟩ := Rnd.pure_ok.mp h4
    injection h5 with h6 h7
    subst h6; subst h7
    obtain ⟨m, r, c, s3, hm, _, _, hm0, hmn, hc, hv, hvcm, hev, hen, hp1⟩ := neutronBoost_ok h1
    obtain ⟨i1, i2, i3⟩ := preLoop_ok h3
    refine ⟨by simp [i1], ?_, ?_⟩
    · intro i
      have := i2 i
      rw [carried_cons]
      simp only [hp1] at this
      linarith
    · intro j e' hj
      cases j with
      | zero =>
        simp only [List.getElem?_cons_zero, Option.some.injEq] at hj
        subst hj
        have hxn : ecm[n]? = some x := by
          unfold readAt at hx
          split at hx
          · rename_i hb
            injection hx with hx
            rw [← hx]
            simp
          · cases hx
        refine ⟨x, m, hxn, by simpa using hm, hm0, ?_, ?_⟩
        · rw [hvcm, direction_sq _ _ _ hc]
          exact Real.mul_self_sqrt hv
        · intro i; rw [hev]; simp [carried]
      | succ j =>
        simp only [List.getElem?_cons_succ] at hj
        obtain ⟨y, m', j1, j2, j3, j6, j8⟩ := i3 j e' hj
        refine ⟨y, m', ?_, ?_, j3, j6, ?_⟩
        · rw [← j1]; congr 1; omega
        · have : a - (j + 1 : Nat) = a - 1 - (j : Int) := by push_cast; ring
          rw [this]; exact j2
        · intro i
          rw [j8 i, List.take_succ_cons, carried_cons]
          simp only [hp1]
          congr 2
          ring

theorem split_ok {k : Const} {mc ml mh tke : ℝ} {aniso : Option (List (ℝ × ℝ))} {p : V3} {l h : V3}
    {s s' : List ℝ} (hs : split k mc ml mh tke aniso p s = .ok ((l, h), s')) :
    mc ≠ 0 ∧ ml ≠ 0 ∧ mh ≠ 0 ∧ 1 / ml + 1 / mh ≠ 0 ∧ (∀ i, p i = l i + h i) ∧
    ∃ n : V3, nsq n = 1 ∧ ∃ pf, 0 ≤ pf ∧
      pf * pf = 2 * (tke - 1 / 2 * (ml + mh) * (nsq p / (mc * mc))) / (1 / ml + 1 / mh) ∧
      ∀ i, l i = pf * n i + ml * p i / mc := by
  unfold split at hs
  replace hs := Rnd.bind_ok.mp hs
  obtain ⟨_, s1, h1, hs⟩ := hs
  obtain ⟨⟨hmc, hml, hmh, hr⟩, rfl⟩ := needs_ok.mp h1
  replace hs := Rnd.bind_ok.mp hs
  obtain ⟨pf, s2, h2, hs⟩ := hs
  obtain ⟨hpf, rfl, rfl⟩ := sqrtR_ok.mp h2
  replace hs := Rnd.bind_ok.mp hs
  obtain ⟨r, s3, h3, hs⟩ := hs
  replace hs := Rnd.bind_ok.mp hs
  obtain ⟨c, s4, h4, hs⟩ := hs
  replace hs := Rnd.bind_ok.mp hs
  obtain ⟨sn, s5, h5, hs⟩ := hs
  obtain ⟨hc, rfl, rfl⟩ := sqrtR_ok.mp h5
  obtain ⟨h8, rfl⟩ := Rnd.pure_ok.mp hs
  injection h8 with h8 h9
  subst h8
  subst h9
  refine ⟨hmc, hml, hmh, hr, fun i => by ring, _, (direction_sq 1 c (k.twopi * r) (by linarith)).trans (one_mul 1), _,
    Real.sqrt_nonneg _, Real.mul_self_sqrt hpf, ?_⟩
  intro i
  fin_cases i
  all_goals simp
  all_goals ring

theorem preeqFirst_ok {k : Const} {i : PfnIn} {p q : V3} {es : List Emit} {s s' : List ℝ}
    (h : preeqFirst k i p s = .ok ((es, q), s')) :
    es.length = (if i.preeq.isSome then 1 else 0) ∧ (∀ j, p j = q j + carried k.mn es j) := by
  unfold preeqFirst at h
  rcases hq : i.preeq with _ | tab
  · rw [hq] at h
    replace h := Rnd.pure_ok.mp h
    obtain ⟨h, rfl⟩ := h
    injection h with h1 h2
    subst h1; subst h2
    simp [carried]
  · rw [hq] at h
    simp only at h
    replace h := Rnd.bind_ok.mp h
    obtain ⟨x, s0, h0, h⟩ := h
    obtain ⟨⟨e, p1⟩, s1, h1, h2⟩ := Rnd.bind_ok.mp h
    obtain ⟨h5, rfl⟩ := Rnd.pure_ok.mp h2
    injection h5 with h6 h7
    subst h6; subst h7
    obtain ⟨m, r, c, s3, hm, _, _, hm0, hmn, hc, hv, hvcm, hev, hen, hp1⟩ := neutronBoost_ok h1
    refine ⟨by simp, ?_⟩
    intro j
    simp [carried, hp1]

/-- Stages of a successful run of `boost_pfn`. -/
theorem boostPfn_ok {k : Const} {i : PfnIn} {o : PfnOut} {s s' : List ℝ}
    (h : boostPfn k i s = .ok (o, s')) :
    ∃ es1 es2 p1 p2 mc ml mh s1 s2 s3, 0 ≤ 2 * k.mn * i.en ∧
      preeqFirst k i ![0, 0, Real.sqrt (2 * k.mn * i.en)] s = .ok ((es1, p1), s1) ∧
      preLoop k i.zc i.ecm es1.length (i.npre - es1.length) i.ac p1 s1 = .ok ((es2, p2), s2) ∧
      k.mass i.zc (i.ac - (i.npre - es1.length : Nat)) = .ok mc ∧ k.mass i.zl i.al = .ok ml ∧
      k.mass i.zh i.ah = .ok mh ∧
      split k mc ml mh i.tke i.aniso p2 s2 = .ok ((o.light, o.heavy), s3) ∧ o.pre = es1 ++ es2 := by
  unfold boostPfn at h
  replace h := Rnd.bind_ok.mp h
  obtain ⟨p0, s0, h0, h⟩ := h
  obtain ⟨hen, rfl, rfl⟩ := sqrtR_ok.mp h0
  replace h := Rnd.bind_ok.mp h
  obtain ⟨⟨es1, p1⟩, s1, h1, h⟩ := h
  replace h := Rnd.bind_ok.mp h
  obtain ⟨⟨es2, p2⟩, s2, h2, h⟩ := h
  replace h := Rnd.bind_ok.mp h
  obtain ⟨mc, s3, h3, h⟩ := h
  obtain ⟨hmc, rfl⟩ := Rnd.lift_ok.mp h3
  replace h := Rnd.bind_ok.mp h
  obtain ⟨ml, s4, h4, h⟩ := h
  obtain ⟨hml, rfl⟩ := Rnd.lift_ok.mp h4
  replace h := Rnd.bind_ok.mp h
  obtain ⟨mh, s5, h5, h⟩ := h
  obtain ⟨hmh, rfl⟩ := Rnd.lift_ok.mp h5
  replace h := Rnd.bind_ok.mp h
  obtain ⟨⟨l, hv⟩, s6, h6, h⟩ := h
  obtain ⟨h7, rfl⟩ := Rnd.pure_ok.mp h
  subst h7
  exact ⟨es1, es2, p1, p2, mc, ml, mh, s1, _, s6, hen, h1, h2, hmc, hml, hmh, h6, rfl⟩

theorem photonBoost_ok {k : Const} {pf mf eg : ℝ} {g : Photon} {s s' : List ℝ}
    (h : photonBoost k pf mf eg s = .ok (g, s')) :
    ∃ n : V3, nsq n = 1 ∧ mf ≠ 0 ∧ 0 ≤ 1 - pf / mf * (pf / mf) ∧ 1 - pf / mf * n 0 ≠ 0 ∧
      g.energy = eg * Real.sqrt (1 - pf / mf * (pf / mf)) / (1 - pf / mf * n 0) ∧
      g.cm = (fun i => eg * n i) ∧ g.lab = fun i => g.energy * n i := by
  unfold photonBoost at h
  replace h := Rnd.bind_ok.mp h
  obtain ⟨r1, s1, h1, h⟩ := h
  replace h := Rnd.bind_ok.mp h
  obtain ⟨r2, s2, h2, h⟩ := h
  replace h := Rnd.bind_ok.mp h
  obtain ⟨_, s3, h3, h⟩ := h
  obtain ⟨⟨hc1, hc2⟩, rfl⟩ := needs_ok.mp h3
  replace h := Rnd.bind_ok.mp h
  obtain ⟨_, s4, h4, h⟩ := h
  obtain ⟨hm, rfl⟩ := needs_ok.mp h4
  replace h := Rnd.bind_ok.mp h
  obtain ⟨q, s5, h5, h⟩ := h
  obtain ⟨hq, rfl, rfl⟩ := sqrtR_ok.mp h5
  replace h := Rnd.bind_ok.mp h
  obtain ⟨_, s6, h6, h⟩ := h
  obtain ⟨hd, rfl⟩ := needs_ok.mp h6
  obtain ⟨h7, rfl⟩ := Rnd.pure_ok.mp h
  subst h7
  rw [Real.cos_arccos hc1 hc2] at hd ⊢
  refine ⟨![2 * r2 - 1, Real.sin (Real.arccos (2 * r2 - 1)) * Real.cos (k.twopi * r1),
    Real.sin (Real.arccos (2 * r2 - 1)) * Real.sin (k.twopi * r1)], ?_, hm, hq, by simpa using hd, ?_, ?_, ?_⟩
  · have h1 := Real.sin_sq_add_cos_sq (k.twopi * r1)
    have h2 := Real.sin_sq_add_cos_sq (Real.arccos (2 * r2 - 1))
    rw [Real.cos_arccos hc1 hc2] at h2
    simp only [nsq, Matrix.cons_val_zero, Matrix.cons_val_one, Matrix.cons_val]
    generalize Real.sin (Real.arccos (2 * r2 - 1)) = t at *
    generalize Real.sin (k.twopi * r1) = a at *
    generalize Real.cos (k.twopi * r1) = b at *
    linear_combination t * t * h1 + h2
  · simp
  · funext j; fin_cases j <;> simp <;> ring
  · funext j; fin_cases j <;> simp <;> ring

theorem photons_ok {k : Const} {pf mf : ℝ} : ∀ {es : List ℝ} {gs : List Photon} {s s' : List ℝ},
    photons k pf mf es s = .ok (gs, s') → gs.length = es.length ∧
      ∀ (j : Nat) (g : Photon), gs[j]? = some g → ∃ eg t t', es[j]? = some eg ∧ photonBoost k pf mf eg t = .ok (g, t')
  | [], gs, s, s', h => by
    replace h := Rnd.pure_ok.mp h
    obtain ⟨h, rfl⟩ := h
    subst h; simp
  | x :: es, gs, s, s', h => by
    unfold photons at h
    replace h := Rnd.bind_ok.mp h
    obtain ⟨g, s1, h1, h⟩ := h
    replace h := Rnd.bind_ok.mp h
    obtain ⟨gs1, s2, h2, h⟩ := h
    obtain ⟨h3, rfl⟩ := Rnd.pure_ok.mp h
    subst h3
    obtain ⟨i1, i2⟩ := photons_ok h2
    refine ⟨by simp [i1], ?_⟩
    intro j g' hj
    cases j with
    | zero =>
      simp only [List.getElem?_cons_zero, Option.some.injEq] at hj
      subst hj
      exact ⟨x, _, _, rfl, h1⟩
    | succ j => simpa using i2 j g' (by simpa using hj)

theorem boost_ok {k : Const} {z a : Int} {p : V3} {ns gs : List ℝ} {b : Boosted} {s s' : List ℝ}
    (h : boost k z a p ns gs s = .ok (b, s')) :
    ∃ s1 s2 mf, boostNeutrons k z a p ns s = .ok ((b.n, b.post), s1) ∧
      k.massT z (a - ns.length) = .ok mf ∧
      photons k (Real.sqrt (nsq b.post)) mf gs s1 = .ok (b.g, s2) := by
  unfold boost at h
  replace h := Rnd.bind_ok.mp h
  obtain ⟨_, s0, h0, h⟩ := h
  obtain ⟨_, rfl⟩ := Rnd.lift_ok.mp h0
  replace h := Rnd.bind_ok.mp h
  obtain ⟨⟨es, q⟩, s1, h1, h⟩ := h
  replace h := Rnd.bind_ok.mp h
  obtain ⟨mf, s2, h2, h⟩ := h
  obtain ⟨hm, rfl⟩ := Rnd.lift_ok.mp h2
  replace h := Rnd.bind_ok.mp h
  obtain ⟨g, s3, h3, h⟩ := h
  obtain ⟨h4, rfl⟩ := Rnd.pure_ok.mp h
  subst h4
  exact ⟨_, _, mf, h1, hm, h3⟩

theorem dircos_ok {v d : V3} {s s' : List ℝ} (h : dircos v s = .ok (d, s')) :
    nsq v ≠ 0 ∧ (d = fun i => v i / Real.sqrt (nsq v)) ∧ s' = s := by
  unfold dircos at h
  replace h := Rnd.bind_ok.mp h
  obtain ⟨_, s1, h1, h⟩ := h
  replace h1 := needs_ok.mp h1
  obtain ⟨h1, rfl⟩ := h1
  obtain ⟨h2, rfl⟩ := Rnd.pure_ok.mp h
  exact ⟨h1, h2.symm, rfl⟩

theorem dircosAll_ok : ∀ {vs ds : List V3} {s s' : List ℝ}, dircosAll vs s = .ok (ds, s') →
    s' = s ∧ ds.length = vs.length ∧
    ∀ (j : Nat) (d : V3), ds[j]? = some d → ∃ v, vs[j]? = some v ∧ nsq v ≠ 0 ∧ d = fun i => v i / Real.sqrt (nsq v)
  | [], ds, s, s', h => by
    replace h := Rnd.pure_ok.mp h
    obtain ⟨h, rfl⟩ := h
    subst h; simp
  | v :: vs, ds, s, s', h => by
    unfold dircosAll at h
    replace h := Rnd.bind_ok.mp h
    obtain ⟨d, s1, h1, h⟩ := h
    replace h := Rnd.bind_ok.mp h
    obtain ⟨ds1, s2, h2, h⟩ := h
    obtain ⟨h3, rfl⟩ := Rnd.pure_ok.mp h
    subst h3
    obtain ⟨hv, hd, rfl⟩ := dircos_ok h1
    obtain ⟨rfl, i1, i2⟩ := dircosAll_ok h2
    refine ⟨rfl, by simp [i1], ?_⟩
    intro j d' hj
    cases j with
    | zero =>
      simp only [List.getElem?_cons_zero, Option.some.injEq] at hj
      subst hj
      exact ⟨v, rfl, hv, hd⟩
    | succ j => simpa using i2 j d' (by simpa using hj)

theorem unit_of_div {v : V3} (h : nsq v ≠ 0) : nsq (fun i => v i / Real.sqrt (nsq v)) = 1 := by
  have h1 := Real.mul_self_sqrt (nsq_nonneg v)
  have h2 : Real.sqrt (nsq v) ≠ 0 := by
    intro h0; rw [h0] at h1; apply h; linarith
  have h3 : nsq (fun i => v i / Real.sqrt (nsq v)) = nsq v / (Real.sqrt (nsq v) * Real.sqrt (nsq v)) := by
    simp only [nsq]
    field_simp
  rw [h3, h1, div_self h]

/-- Momentum recovered from kinetic energy and direction cosines. -/
theorem momentum_of_dir {m : ℝ} (hm : 0 < m) {v : V3} (h : nsq v ≠ 0) (i : Fin 3) :
    Real.sqrt (2 * m * (nsq v * (1 / 2) * m)) * (v i / Real.sqrt (nsq v)) = m * v i := by
  have h1 := Real.mul_self_sqrt (nsq_nonneg v)
  have h2 : Real.sqrt (nsq v) ≠ 0 := by
    intro h0; rw [h0] at h1; apply h; linarith
  have h3 : 2 * m * (nsq v * (1 / 2) * m) = (m * m) * nsq v := by ring
  rw [h3, Real.sqrt_mul (by positivity), Real.sqrt_mul_self hm.le]
  field_simp

end CGMF.Kin

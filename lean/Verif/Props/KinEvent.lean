import Verif.Props.Kinematics

/-!
# C37-C41: kinematics of fission and of the whole event
-/

set_option linter.unusedSectionVars false
set_option linter.unusedSimpArgs false
set_option linter.unusedTactic false
set_option linter.unreachableTactic false

namespace CGMF.Props

open CGMF CGMF.Kin CGMF.Spec CGMF.Event

/-- Momentum of the incident neutron, along `z`. -/
noncomputable def incident (m en : ℝ) : Fin 3 → ℝ := ![0, 0, Real.sqrt (2 * m * en)]

/-- **C37.**  Every completed fission: as many pre-fission neutrons as announced, and the incident
momentum is shared exactly by the pre-fission neutrons and the two fragments, for every number of
pre-fission neutrons, with or without a pre-equilibrium neutron, for every angular table. -/
theorem C37_momentum {k : Const} {i : PfnIn} {o : PfnOut} {s s' : List ℝ}
    (h : boostPfn k i s = .ok (o, s')) (hq : i.preeq.isSome → 1 ≤ i.npre) :
    o.pre.length = i.npre ∧
    ∀ j, incident k.mn i.en j = o.light j + o.heavy j + (o.pre.map fun e => k.mn * e.v j).sum := by
  obtain ⟨es1, es2, p1, p2, mc, ml, mh, s1, s2, s3, h0, h1, h2, h3, h4, h5, h6, h7⟩ := boostPfn_ok h
  obtain ⟨a1, a2⟩ := preeqFirst_ok h1
  obtain ⟨b1, b2, _⟩ := preLoop_ok h2
  obtain ⟨_, _, _, _, c1, _⟩ := split_ok h6
  constructor
  · rw [h7, List.length_append, b1, a1]
    split
    · have := hq (by assumption); omega
    · omega
  · intro j
    have e1 := a2 j
    have e2 := b2 j
    have e3 := c1 j
    have e4 : (o.pre.map fun e => k.mn * e.v j).sum = carried k.mn es1 j + carried k.mn es2 j := by
      rw [h7]; simp [carried]
    rw [e4]
    change ![0, 0, Real.sqrt (2 * k.mn * i.en)] j = _
    rw [e1, e2, e3]
    ring

/-- **C37.**  Without a pre-equilibrium neutron, neutron `n` leaves a nucleus that already lost `n`
neutrons, with the momentum left by the neutrons before it and its prescribed energy. -/
theorem C37_sequence {k : Const} {i : PfnIn} {o : PfnOut} {s s' : List ℝ}
    (h : boostPfn k i s = .ok (o, s')) (hq : i.preeq = none) (hmn : k.mn ≠ 0)
    (n : Nat) (e : Emit) (hn : o.pre[n]? = some e) :
    ∃ x m, i.ecm[n]? = some x ∧ k.mass i.zc (i.ac - n) = .ok m ∧ kinetic k.mn e.vcm = x ∧
      ∀ j, e.v j = e.vcm j +
        (incident k.mn i.en j - ((o.pre.take n).map fun e => k.mn * e.v j).sum) / m := by
  obtain ⟨es1, es2, p1, p2, mc, ml, mh, s1, s2, s3, h0, h1, h2, h3, h4, h5, h6, h7⟩ := boostPfn_ok h
  unfold preeqFirst at h1
  rw [hq] at h1
  obtain ⟨h8, rfl⟩ := Rnd.pure_ok.mp h1
  injection h8 with h8 h9
  subst h8; subst h9
  obtain ⟨_, _, b3⟩ := preLoop_ok h2
  rw [List.nil_append] at h7
  rw [h7] at hn ⊢
  obtain ⟨x, m, c1, c2, c3, c4, c5⟩ := b3 n e hn
  refine ⟨x, m, by simpa using c1, c2, ?_, c5⟩
  rw [kinetic, dot_sq, c4]
  field_simp

/-- **C66 (kinetic energy).**  The kinetic energies of the two fragments differ from TKE exactly by the
term below, which vanishes when the fissioning nucleus is at rest or when the mass used for it is the
sum of the fragment masses.  The mass used is that of the nucleus left after all pre-fission neutrons,
except that with a pre-equilibrium neutron it is one neutron too heavy. -/
theorem C66_tke {k : Const} {i : PfnIn} {o : PfnOut} {s s' : List ℝ}
    (h : boostPfn k i s = .ok (o, s')) :
    ∃ mc ml mh, k.mass i.zc (i.ac - ((if i.preeq.isSome then i.npre - 1 else i.npre : Nat) : Int)) = .ok mc ∧
      k.mass i.zl i.al = .ok ml ∧ k.mass i.zh i.ah = .ok mh ∧
      kineticOf ml o.light + kineticOf mh o.heavy =
        i.tke + (mc - ml - mh) / (2 * mh * mc) *
          (2 * dot o.heavy (o.light + o.heavy) -
            (mc - ml - mh) / mc * dot (o.light + o.heavy) (o.light + o.heavy)) := by
  obtain ⟨es1, es2, p1, p2, mc, ml, mh, s1, s2, s3, h0, h1, h2, h3, h4, h5, h6, h7⟩ := boostPfn_ok h
  obtain ⟨a1, a2⟩ := preeqFirst_ok h1
  obtain ⟨hmc, hml, hmh, hr, hsum, n, hn, pf, hpf0, hpf, hl⟩ := split_ok h6
  refine ⟨mc, ml, mh, ?_, h4, h5, ?_⟩
  · rw [← h3, a1]
    split <;> rfl
  have hh : ∀ j, o.heavy j = p2 j - (pf * n j + ml * p2 j / mc) := by
    intro j; have := hsum j; rw [← hl j]; linarith
  have hls : (o.light + o.heavy) = p2 := by
    funext j; rw [Pi.add_apply]; exact (hsum j).symm
  rw [hls]
  have h2' : o.light = fun j => pf * n j + ml * p2 j / mc := funext hl
  have h3' : o.heavy = fun j => p2 j - (pf * n j + ml * p2 j / mc) := funext hh
  rw [h2', h3']
  have hr' : ml + mh ≠ 0 := by
    intro h0
    apply hr
    field_simp
    linarith
  have hpf2 : pf * pf * (ml + mh) = 2 * ml * mh * (i.tke - 1 / 2 * (ml + mh) * (nsq p2 / (mc * mc))) := by
    have hrr : 1 / ml + 1 / mh = (ml + mh) / (ml * mh) := by field_simp; ring
    rw [hpf, hrr]
    generalize nsq p2 / (mc * mc) = w
    field_simp
  have htke : i.tke = pf * pf * (ml + mh) / (2 * ml * mh) + 1 / 2 * (ml + mh) * (nsq p2 / (mc * mc)) := by
    rw [hpf2]; field_simp
    ring
  rw [htke]
  simp only [kineticOf, dot, Fin.sum_univ_three]
  simp only [nsq] at hn ⊢
  have hn2 : n 2 * n 2 = 1 - n 0 * n 0 - n 1 * n 1 := by linarith
  field_simp
  generalize n 0 = a at *
  generalize n 1 = b at *
  generalize n 2 = c at *
  generalize p2 0 = x at *
  generalize p2 1 = y at *
  generalize p2 2 = z at *
  have hc2 : c ^ 2 = 1 - a ^ 2 - b ^ 2 := by nlinarith
  ring_nf
  simp only [hc2]
  ring

/-- **C66 (kinetic energy).**  Spontaneous or thermal fission without pre-fission neutrons, nucleus at
rest: equal and opposite momenta, and kinetic energies adding up to TKE. -/
theorem C66_at_rest {k : Const} {i : PfnIn} {o : PfnOut} {s s' : List ℝ}
    (h : boostPfn k i s = .ok (o, s')) (hen : i.en = 0) (hpre : i.npre = 0) (hq : i.preeq = none) :
    (∀ j, o.light j + o.heavy j = 0) ∧ ∃ ml mh, k.mass i.zl i.al = .ok ml ∧ k.mass i.zh i.ah = .ok mh ∧
      kineticOf ml o.light + kineticOf mh o.heavy = i.tke := by
  obtain ⟨hlen, hm⟩ := C37_momentum h (by simp [hq])
  rw [hpre, List.length_eq_zero_iff] at hlen
  have h0 : ∀ j, o.light j + o.heavy j = 0 := by
    intro j
    have := hm j
    rw [hlen, incident, hen] at this
    simp only [mul_zero, Real.sqrt_zero, List.map_nil, List.sum_nil, add_zero] at this
    rw [← this]
    fin_cases j <;> simp
  refine ⟨h0, ?_⟩
  obtain ⟨mc, ml, mh, _, h2, h3, h4⟩ := C66_tke h
  refine ⟨ml, mh, h2, h3, ?_⟩
  have h5 : o.light + o.heavy = fun _ => 0 := funext h0
  rw [h4, h5]
  simp [dot]

/-- **C66 (kinetic energy).**  When masses are additive (compound = fragments + neutrons) and there is
no pre-equilibrium neutron, the fragment kinetic energies always add up to TKE. -/
theorem C66_additive_partial {k : Const} {i : PfnIn} {o : PfnOut} {s s' : List ℝ}
    (h : boostPfn k i s = .ok (o, s')) (hq : i.preeq = none)
    {mc ml mh : ℝ} (h1 : k.mass i.zc (i.ac - i.npre) = .ok mc) (h2 : k.mass i.zl i.al = .ok ml)
    (h3 : k.mass i.zh i.ah = .ok mh) (hadd : mc = ml + mh) :
    kineticOf ml o.light + kineticOf mh o.heavy = i.tke := by
  obtain ⟨mc', ml', mh', a1, a2, a3, a4⟩ := C66_tke h
  rw [hq] at a1
  simp only [Option.isSome_none, Bool.false_eq_true, if_false] at a1
  rw [h1] at a1; rw [h2] at a2; rw [h3] at a3
  injection a1 with a1; injection a2 with a2; injection a3 with a3
  subst a1; subst a2; subst a3
  rw [a4, hadd]
  simp

/-- Fissioning system of the refutation: mass number 4, one pre-equilibrium neutron, fragments 1+2. -/
noncomputable def preeqIn : PfnIn := ⟨1, 4, 0, 27 / 32, 1, 1, 2, 1, 1, [1 / 2, 0, 0], none, some [(-1, 0), (1, 1)]⟩

theorem preeq_run : ∃ o s', boostPfn unitWorld preeqIn [0, 0, 0, 1] = .ok (o, s') ∧
    o.light = ![0, 0, 5 / 4] ∧ o.heavy = ![0, 0, -(1 / 4)] := by
  have hmn := unitWorld_mn
  have hz : Real.sqrt (2 * unitWorld.mn * preeqIn.en) = 0 := by simp [preeqIn]
  have c1 : sampleCos (some [(-1, 0), (1, 1)]) [0, 0, 1] = .ok (-1, [0, 1]) := by
    unfold sampleCos cdfCos
    simp only
    rw [Rnd.bind_of_ok (Rnd.draw_cons _ _),
      Rnd.bind_of_ok (Rnd.get_ok.mpr ⟨show cdfScan [((-1 : ℝ), (0 : ℝ)), (1, 1)] 0 none = some ((-1, 0), (1, 1)) by
        simp [cdfScan], rfl⟩),
      Rnd.bind_of_ok (needs_run (by norm_num) _)]
    norm_num
  have hq : Real.sqrt (2 * (1 / 2) / unitWorld.mn) = 1 := by
    rw [hmn]; norm_num
  have n1 : neutronBoost unitWorld 1 4 ![0, 0, 0] (1 / 2) (some [(-1, 0), (1, 1)]) [0, 0, 0, 1] =
      .ok ((⟨1 / 2, ![0, 0, -1], ![0, 0, -1]⟩, ![0, 0, 1]), [0, 1]) := by
    unfold neutronBoost
    rw [Rnd.bind_of_ok (Rnd.lift_ok.mpr ⟨unitWorld_mass 1 4, rfl⟩), Rnd.bind_of_ok (Rnd.draw_cons _ _),
      Rnd.bind_of_ok c1, Rnd.bind_of_ok (sqrtR_run (by norm_num) _),
      Rnd.bind_of_ok (needs_run (by rw [hmn]; norm_num) _),
      Rnd.bind_of_ok (sqrtR_run (by rw [hmn]; norm_num) _), Rnd.bind_of_ok (needs_run (by norm_num) _), hq]
    rw [Rnd.pure_run]
    have hv : (fun i => (![1 * Real.sqrt (1 - -1 * -1) * Real.cos (unitWorld.twopi * 0),
        1 * Real.sqrt (1 - -1 * -1) * Real.sin (unitWorld.twopi * 0), 1 * -1] : V3) i +
        (![0, 0, 0] : V3) i / ((4 : Int) : ℝ)) = ![0, 0, -1] := by
      funext i
      fin_cases i
      all_goals norm_num
    have hc : (![1 * Real.sqrt (1 - -1 * -1) * Real.cos (unitWorld.twopi * 0),
        1 * Real.sqrt (1 - -1 * -1) * Real.sin (unitWorld.twopi * 0), 1 * -1] : V3) = ![0, 0, -1] := by
      norm_num
    rw [hv, hc, nsq_vec, hmn]
    congr 3
    · congr 1
      norm_num
    · funext i
      fin_cases i
      all_goals simp
  have f1 : preeqFirst unitWorld preeqIn ![0, 0, 0] [0, 0, 0, 1] =
      .ok (([⟨1 / 2, ![0, 0, -1], ![0, 0, -1]⟩], ![0, 0, 1]), [0, 1]) := by
    unfold preeqFirst
    simp only [preeqIn]
    rw [Rnd.bind_of_ok (Rnd.lift_ok.mpr ⟨show readAt [(1 / 2 : ℝ), 0, 0] 0 = .ok (1 / 2) by simp [readAt], rfl⟩),
      Rnd.bind_of_ok n1]
    rfl
  have sp : split unitWorld 4 1 2 (27 / 32) none ![0, 0, 1] [0, 1] =
      .ok ((![0, 0, 5 / 4], ![0, 0, -(1 / 4)]), []) := by
    have hq2 : Real.sqrt (2 * (27 / 32 - 1 / 2 * (1 + 2) * ((0 * 0 + 0 * 0 + 1 * 1) / (4 * 4))) / (1 / 1 + 1 / 2)) = 1 := by
      norm_num
    unfold split
    rw [nsq_vec, Rnd.bind_of_ok (needs_run (by norm_num) _), Rnd.bind_of_ok (sqrtR_run (by norm_num) _),
      Rnd.bind_of_ok (Rnd.draw_cons _ _),
      Rnd.bind_of_ok (show sampleCos none [1] = .ok (2 * 1 - 1, []) from rfl),
      Rnd.bind_of_ok (sqrtR_run (by norm_num) _), hq2]
    rw [Rnd.pure_run]
    congr 3
    · funext i
      fin_cases i
      all_goals norm_num
      all_goals simp
      all_goals norm_num
    · funext i
      fin_cases i
      all_goals norm_num
      all_goals simp
  refine ⟨⟨[⟨1 / 2, ![0, 0, -1], ![0, 0, -1]⟩] ++ [], ![0, 0, 5 / 4], ![0, 0, -(1 / 4)]⟩, [], ?_, rfl, rfl⟩
  unfold boostPfn
  rw [Rnd.bind_of_ok (sqrtR_run (by simp [preeqIn]) _), hz, Rnd.bind_of_ok f1]
  refine (Rnd.bind_of_ok (show preLoop unitWorld preeqIn.zc preeqIn.ecm 1 (1 - 1) preeqIn.ac ![0, 0, 1] [0, 1] =
      .ok (([], ![0, 0, 1]), [0, 1]) from rfl)).trans ?_
  refine (Rnd.bind_of_ok (Rnd.lift_ok.mpr ⟨show unitWorld.mass 1 (4 - (1 - 1 : Nat)) = .ok 4 by
      rw [unitWorld_mass]; norm_num, rfl⟩)).trans ?_
  refine (Rnd.bind_of_ok (Rnd.lift_ok.mpr ⟨show unitWorld.mass 1 1 = .ok 1 by
    rw [unitWorld_mass]; norm_num, rfl⟩)).trans ?_
  refine (Rnd.bind_of_ok (Rnd.lift_ok.mpr ⟨show unitWorld.mass 1 2 = .ok 2 by
    rw [unitWorld_mass]; norm_num, rfl⟩)).trans ?_
  refine (Rnd.bind_of_ok sp).trans ?_
  rfl

/-- **C66 (kinetic energy), refuted with a pre-equilibrium neutron.**  Masses are additive, yet the
fragment kinetic energies do not add up to TKE, because the mass number is not lowered after the
pre-equilibrium neutron. -/
theorem C66_preeq_refuted : ∃ (k : Const) (i : PfnIn) (o : PfnOut) (s s' : List ℝ) (mc ml mh : ℝ),
    boostPfn k i s = .ok (o, s') ∧ i.preeq.isSome ∧ i.npre = 1 ∧
    k.mass i.zc (i.ac - i.npre) = .ok mc ∧ k.mass i.zl i.al = .ok ml ∧ k.mass i.zh i.ah = .ok mh ∧
    mc = ml + mh ∧ kineticOf ml o.light + kineticOf mh o.heavy ≠ i.tke := by
  obtain ⟨o, s', h1, h2, h3⟩ := preeq_run
  refine ⟨unitWorld, preeqIn, o, _, s', 3, 1, 2, h1, rfl, rfl, ?_, ?_, ?_, by norm_num, ?_⟩
  · rw [unitWorld_mass]; norm_num [preeqIn]
  · rw [unitWorld_mass]; norm_num [preeqIn]
  · rw [unitWorld_mass]; norm_num [preeqIn]
  · rw [h2, h3]
    norm_num [kineticOf, dot_sq, nsq_vec, preeqIn]

example : ∃ o s', boostPfn unitWorld preeqIn [0, 0, 0, 1] = .ok (o, s') ∧ o.pre.length = 1 := by
  obtain ⟨o, s', h, _⟩ := preeq_run
  exact ⟨o, s', h, (C37_momentum h (by simp [preeqIn])).1⟩

/-- The four pre-fission getters of an assembled event. -/
theorem pre_getters {nmass time : ℝ} {lf hf : FragRecord ℝ} {preN : Nat} {pfn : List (PreNeutron ℝ)}
    (hp : preN ≤ pfn.length) {e : EventData ℝ}
    (he : assemble Real.sqrt nmass time lf hf preN pfn = .ok e) {i : Nat} (hi : i < preN) {p : PreNeutron ℝ}
    (hpi : pfn[i]? = some p) :
    getPreFissionNeutronEnergy e i = .ok (preEnergy nmass p) ∧
    getPreFissionNeutronDircosu e i = .ok (p.vx / Real.sqrt p.v2) ∧
    getPreFissionNeutronDircosv e i = .ok (p.vy / Real.sqrt p.v2) ∧
    getPreFissionNeutronDircosw e i = .ok (p.vz / Real.sqrt p.v2) := by
  unfold assemble at he
  simp only [preCol_ok _ pfn preN hp, Res.bind_ok, Res.bind_eq_ok] at he
  obtain ⟨_, _, _, _, _, _, _, _, _, _, _, _, _, _, _, _, _, _, _, _, _, _, _, _, _, _, _, _, he⟩ := he
  injection he with he
  subst he
  have hlen : (pfn.take preN).length = preN := by simp; omega
  simp only [getPreFissionNeutronEnergy, getPreFissionNeutronDircosu, getPreFissionNeutronDircosv,
    getPreFissionNeutronDircosw, getter_map _ _ _ hlen]
  have hc : (0 : Int) ≤ i ∧ (i : Int) < preN := by omega
  have hil : i < pfn.length := by omega
  have hget : (pfn.take preN)[(i : Int).toNat]'(by simp; omega) = p := by
    rw [List.getElem?_eq_getElem hil] at hpi
    injection hpi with hpi
    simpa using hpi
  simp only [dif_pos hc, hget, and_self]

/-- Stages of a completed event. -/
theorem event_ok {k : Const} {time : ℝ} {i : PfnIn} {decL decH : Rnd ℝ (MC.Rec ℝ)} {F : Full} {s s' : List ℝ}
    (h : event k time i decL decH s = .ok (F, s')) :
    ∃ o rl rh l hv t1 t2 t3 t4 t5, boostPfn k i s = .ok (o, t1) ∧
      fragTail k i.zl i.al o.light rl t2 = .ok (l, t3) ∧ fragTail k i.zh i.ah o.heavy rh t4 = .ok (hv, t5) ∧
      (∀ e ∈ o.pre.take i.npre, nsq e.v ≠ 0) ∧
      assemble Real.sqrt k.mn time l.rcd hv.rcd i.npre (o.pre.map fun e => ⟨e.v 0, e.v 1, e.v 2⟩) = .ok F.data ∧
      F.preL = o.light ∧ F.preH = o.heavy ∧ F.postL = l.post ∧ F.postH = hv.post ∧ F.keL = l.kePost ∧
      F.keH = hv.kePost := by
  unfold event at h
  replace h := Rnd.bind_ok.mp h
  obtain ⟨o, s0, h0, h⟩ := h
  replace h := Rnd.bind_ok.mp h
  obtain ⟨rl, s1, h1, h⟩ := h
  replace h := Rnd.bind_ok.mp h
  obtain ⟨l, s2, h2, h⟩ := h
  replace h := Rnd.bind_ok.mp h
  obtain ⟨rh, s3, h3, h⟩ := h
  replace h := Rnd.bind_ok.mp h
  obtain ⟨hv, s4, h4, h⟩ := h
  replace h := Rnd.bind_ok.mp h
  obtain ⟨_, s5, h5, h⟩ := h
  obtain ⟨h5', rfl⟩ := needs_ok.mp h5
  replace h := Rnd.bind_ok.mp h
  obtain ⟨d, s6, h6, h⟩ := h
  obtain ⟨h6', rfl⟩ := Rnd.lift_ok.mp h6
  obtain ⟨h7, rfl⟩ := Rnd.pure_ok.mp h
  subst h7
  exact ⟨o, rl, rh, l, hv, s0, s1, s2, s3, _, h0, h2, h4, h5', h6', rfl, rfl, rfl, rfl, rfl, rfl⟩

theorem mem_take_of_get {α : Type _} {l : List α} {n j : Nat} {x : α} (h : l[j]? = some x) (hj : j < n) :
    x ∈ l.take n := by
  have : (l.take n)[j]? = some x := by rw [List.getElem?_take_of_lt hj]; exact h
  exact List.mem_of_getElem? this

/-- **C38.**  Every completed event, whatever the two de-excitations did: the incident neutron's
momentum equals the sum of the reported fragment momenta after emission, the momenta a user computes
from the energy and direction getters of every neutron, and those of every pre-fission neutron. -/
theorem C38_event {k : Const} (hmn : 0 < k.mn) {time : ℝ} {i : PfnIn} {decL decH : Rnd ℝ (MC.Rec ℝ)} {F : Full}
    {s s' : List ℝ} (h : event k time i decL decH s = .ok (F, s')) (hq : i.preeq.isSome → 1 ≤ i.npre) :
    ∃ ps qs : List (Fin 3 → ℝ), ps.length = F.data.neutronNu ∧ qs.length = F.data.preNu ∧
      (∀ (j : Nat) (p : Fin 3 → ℝ), ps[j]? = some p → MomentumShown k.mn (getNeutronEnergy F.data j)
        (getNeutronDircosu F.data j) (getNeutronDircosv F.data j) (getNeutronDircosw F.data j) p) ∧
      (∀ (j : Nat) (p : Fin 3 → ℝ), qs[j]? = some p → MomentumShown k.mn (getPreFissionNeutronEnergy F.data j)
        (getPreFissionNeutronDircosu F.data j) (getPreFissionNeutronDircosv F.data j)
        (getPreFissionNeutronDircosw F.data j) p) ∧
      incident k.mn i.en = F.postL + F.postH + ps.sum + qs.sum := by
  obtain ⟨o, rl, rh, l, hv, t1, t2, t3, t4, t5, h1, h2, h3, h4, h5, h6, h7, h8, h9, _⟩ := event_ok h
  obtain ⟨a1, a2⟩ := C37_momentum h1 hq
  obtain ⟨_, _, _, _, _, _, _, wl, _⟩ := fragTail_ok h2
  obtain ⟨_, _, _, _, _, _, _, wh, _⟩ := fragTail_ok h3
  obtain ⟨pl, l1, l2, l3, l4⟩ := C36_record hmn h2
  obtain ⟨ph, g1, g2, g3, g4⟩ := C36_record hmn h3
  have hplen : i.npre ≤ (o.pre.map fun e => (⟨e.v 0, e.v 1, e.v 2⟩ : PreNeutron ℝ)).length := by
    rw [List.length_map]; omega
  obtain ⟨e, he, n1, n2, n3, je, ju, jv, jw, _⟩ := C04_event_lists Real.sqrt k.mn time l.rcd hv.rcd wl wh i.npre _ hplen
  rw [h5] at he
  injection he with he
  subst he
  refine ⟨pl ++ ph, o.pre.map fun e => fun j => k.mn * e.v j, ?_, ?_, ?_, ?_, ?_⟩
  · rw [List.length_append, l1, g1, n1]
  · rw [List.length_map, n3, a1]
  · intro j p hp
    by_cases hj : j < pl.length
    · rw [List.getElem?_append_left hj] at hp
      obtain ⟨e, u, v, w, b1, b2, b3, b4, b5⟩ := l3 j p hp
      have hj' : j < l.rcd.nu := by omega
      obtain ⟨x1, y1, z1⟩ := je.1 j hj'
      obtain ⟨x2, y2, z2⟩ := ju.1 j hj'
      obtain ⟨x3, y3, z3⟩ := jv.1 j hj'
      obtain ⟨x4, y4, z4⟩ := jw.1 j hj'
      rw [b1] at y1; rw [b2] at y2; rw [b3] at y3; rw [b4] at y4
      injection y1 with y1; injection y2 with y2; injection y3 with y3; injection y4 with y4
      subst y1; subst y2; subst y3; subst y4
      exact ⟨_, _, _, _, z1, z2, z3, z4, b5⟩
    · have hj2 : pl.length ≤ j := by omega
      rw [List.getElem?_append_right hj2] at hp
      obtain ⟨e, u, v, w, b1, b2, b3, b4, b5⟩ := g3 _ p hp
      have hj' : j - pl.length < hv.rcd.nu := by
        rw [← g1]; exact (List.getElem?_eq_some_iff.mp hp).1
      have hcast : ((l.rcd.nu : Int) + (j - pl.length : Nat)) = (j : Int) := by omega
      obtain ⟨x1, y1, z1⟩ := je.2.1 _ hj'
      obtain ⟨x2, y2, z2⟩ := ju.2.1 _ hj'
      obtain ⟨x3, y3, z3⟩ := jv.2.1 _ hj'
      obtain ⟨x4, y4, z4⟩ := jw.2.1 _ hj'
      rw [hcast] at z1 z2 z3 z4
      rw [b1] at y1; rw [b2] at y2; rw [b3] at y3; rw [b4] at y4
      injection y1 with y1; injection y2 with y2; injection y3 with y3; injection y4 with y4
      subst y1; subst y2; subst y3; subst y4
      exact ⟨_, _, _, _, z1, z2, z3, z4, b5⟩
  · intro j p hp
    rw [List.getElem?_map, Option.map_eq_some_iff] at hp
    obtain ⟨e, he, rfl⟩ := hp
    have hj : j < i.npre := by rw [← a1]; exact (List.getElem?_eq_some_iff.mp he).1
    obtain ⟨c1, c2, c3, c4⟩ := pre_getters hplen h5 hj (p := ⟨e.v 0, e.v 1, e.v 2⟩)
      (by rw [List.getElem?_map, he]; rfl)
    refine ⟨_, _, _, _, c1, c2, c3, c4, ?_⟩
    have hne := h4 e (mem_take_of_get he hj)
    have hv2 : (⟨e.v 0, e.v 1, e.v 2⟩ : PreNeutron ℝ).v2 = nsq e.v := by
      simp [PreNeutron.v2, nsq]
    have hen : preEnergy k.mn (⟨e.v 0, e.v 1, e.v 2⟩ : PreNeutron ℝ) = nsq e.v * (1 / 2) * k.mn := by
      rw [preEnergy, hv2]; ring
    rw [hen, hv2]
    funext m
    have := momentum_of_dir hmn hne m
    fin_cases m <;> simpa using this.symm
  · have e1 : (pl ++ ph).sum = pl.sum + ph.sum := List.sum_append
    rw [e1, h8, h9]
    funext m
    have q1 := a2 m
    have q2 := congrFun l4 m
    have q3 := congrFun g4 m
    have q4 : (o.pre.map fun e => fun j => k.mn * e.v j).sum m = (o.pre.map fun e => k.mn * e.v m).sum := by
      clear * -
      induction o.pre with
      | nil => rfl
      | cons x xs ih => simp [ih]
    simp only [Pi.add_apply] at q2 q3 ⊢
    rw [q1, q4, q2, q3]
    ring

/-- A symmetric spontaneous fission in the example world. -/
noncomputable def sfIn : PfnIn := ⟨1, 4, 0, 8, 2, 1, 2, 1, 0, [0, 0, 0], none, none⟩

theorem sf_run : ∃ o, boostPfn unitWorld sfIn [0, 1, 0, 1] = .ok (o, [0, 1]) ∧
    o.light = ![0, 0, 4] ∧ o.heavy = ![0, 0, -4] := by
  have hz : Real.sqrt (2 * unitWorld.mn * sfIn.en) = 0 := by simp [sfIn]
  have sp : split unitWorld 4 2 2 8 none ![0, 0, 0] [0, 1, 0, 1] =
      .ok ((![0, 0, 4], ![0, 0, -4]), [0, 1]) := by
    have hq2 : Real.sqrt (2 * (8 - 1 / 2 * (2 + 2) * ((0 * 0 + 0 * 0 + 0 * 0) / (4 * 4))) / (1 / 2 + 1 / 2)) = 4 := by
      norm_num
      rw [show (16 : ℝ) = 4 * 4 by norm_num]
      exact Real.sqrt_mul_self (by norm_num)
    unfold split
    rw [nsq_vec, Rnd.bind_of_ok (needs_run (by norm_num) _), Rnd.bind_of_ok (sqrtR_run (by norm_num) _),
      Rnd.bind_of_ok (Rnd.draw_cons _ _),
      Rnd.bind_of_ok (show sampleCos none [1, 0, 1] = .ok (2 * 1 - 1, [0, 1]) from rfl),
      Rnd.bind_of_ok (sqrtR_run (by norm_num) _), hq2]
    rw [Rnd.pure_run]
    congr 3
    · funext i
      fin_cases i
      all_goals norm_num
      all_goals simp
    · funext i
      fin_cases i
      all_goals norm_num
      all_goals simp
  refine ⟨⟨[] ++ [], ![0, 0, 4], ![0, 0, -4]⟩, ?_, rfl, rfl⟩
  unfold boostPfn
  rw [Rnd.bind_of_ok (sqrtR_run (by simp [sfIn]) _), hz]
  refine (Rnd.bind_of_ok (show preeqFirst unitWorld sfIn ![0, 0, 0] [0, 1, 0, 1] =
    .ok (([], ![0, 0, 0]), [0, 1, 0, 1]) from rfl)).trans ?_
  refine (Rnd.bind_of_ok (show preLoop unitWorld sfIn.zc sfIn.ecm 0 0 sfIn.ac ![0, 0, 0] [0, 1, 0, 1] =
      .ok (([], ![0, 0, 0]), [0, 1, 0, 1]) from rfl)).trans ?_
  refine (Rnd.bind_of_ok (Rnd.lift_ok.mpr ⟨show unitWorld.mass 1 (4 - (0 : Nat)) = .ok 4 by
      rw [unitWorld_mass]; norm_num, rfl⟩)).trans ?_
  refine (Rnd.bind_of_ok (Rnd.lift_ok.mpr ⟨show unitWorld.mass 1 2 = .ok 2 by
    rw [unitWorld_mass]; norm_num, rfl⟩)).trans ?_
  refine (Rnd.bind_of_ok (Rnd.lift_ok.mpr ⟨show unitWorld.mass 1 2 = .ok 2 by
    rw [unitWorld_mass]; norm_num, rfl⟩)).trans ?_
  refine (Rnd.bind_of_ok sp).trans ?_
  rfl

/-- A completed event with one neutron from the light fragment: the hypotheses of C38 and C39 are met. -/
theorem sf_event : ∃ F, event unitWorld 0 sfIn (pure ⟨[1 / 2], [], []⟩) (pure ⟨[], [], []⟩) [0, 1, 0, 1] =
    .ok (F, []) ∧ F.data.neutronNu = 1 := by
  obtain ⟨o, h1, h2, h3⟩ := sf_run
  obtain ⟨l, l1, _⟩ := frag_run
  have hb : boost unitWorld 1 2 ![0, 0, -4] [] [] [] = .ok (⟨[], [], ![0, 0, -4]⟩, []) := by
    unfold boost
    rw [Rnd.bind_of_ok (Rnd.lift_ok.mpr ⟨unitWorld_mass 1 2, rfl⟩),
      Rnd.bind_of_ok (show boostNeutrons unitWorld 1 2 ![0, 0, -4] [] [] = .ok (([], ![0, 0, -4]), []) from rfl),
      Rnd.bind_of_ok (Rnd.lift_ok.mpr ⟨unitWorld_massT _ _, rfl⟩)]
    rfl
  have hh : ∃ hv, fragTail unitWorld 1 2 ![0, 0, -4] ⟨[], [], []⟩ [] = .ok (hv, []) ∧ hv.rcd.nu = 0 := by
    unfold fragTail
    rw [Rnd.bind_of_ok (needs_run (by simp) _), List.map_nil, Rnd.bind_of_ok hb,
      Rnd.bind_of_ok (Rnd.lift_ok.mpr ⟨unitWorld_mass _ _, rfl⟩), Rnd.bind_of_ok (needs_run (by norm_num) _)]
    exact ⟨_, rfl, rfl⟩
  obtain ⟨hv, g1, g2⟩ := hh
  obtain ⟨_, _, _, _, _, _, _, wl, _⟩ := fragTail_ok l1
  obtain ⟨_, _, _, _, _, _, _, wh, _⟩ := fragTail_ok g1
  obtain ⟨e, he, n1, _⟩ := C04_event_lists Real.sqrt unitWorld.mn 0 l.rcd hv.rcd wl wh 0
    (o.pre.map fun e => ⟨e.v 0, e.v 1, e.v 2⟩) (by simp)
  obtain ⟨_, _, l2, _⟩ := C36_record (by rw [unitWorld_mn]; norm_num) l1
  refine ⟨⟨e, o.light, o.heavy, l.post, hv.post, l.kePost, hv.kePost⟩, ?_, by rw [n1, l2, g2]; rfl⟩
  unfold event
  rw [Rnd.bind_of_ok h1, Rnd.bind_of_ok (Rnd.pure_run _ _), h2]
  refine (Rnd.bind_of_ok l1).trans ?_
  rw [Rnd.bind_of_ok (Rnd.pure_run _ _), h3]
  refine (Rnd.bind_of_ok g1).trans ?_
  refine (Rnd.bind_of_ok (needs_run (by simp [sfIn]) _)).trans ?_
  refine (Rnd.bind_of_ok (Rnd.lift_ok.mpr ⟨he, rfl⟩)).trans ?_
  rfl

/-- **C39.**  Every completed event: the three direction cosines returned for any neutron (laboratory
and centre of mass), any photon and any pre-fission neutron have squares adding up to one. -/
theorem C39_unit {k : Const} {time : ℝ} {i : PfnIn} {decL decH : Rnd ℝ (MC.Rec ℝ)} {F : Full}
    {s s' : List ℝ} (h : event k time i decL decH s = .ok (F, s')) (hq : i.preeq.isSome → 1 ≤ i.npre) :
    (∀ j : Nat, j < F.data.neutronNu →
      UnitShown (getNeutronDircosu F.data j) (getNeutronDircosv F.data j) (getNeutronDircosw F.data j) ∧
      UnitShown (getCmNeutronDircosu F.data j) (getCmNeutronDircosv F.data j) (getCmNeutronDircosw F.data j)) ∧
    (∀ j : Nat, j < F.data.photonNu →
      UnitShown (getPhotonDircosu F.data j) (getPhotonDircosv F.data j) (getPhotonDircosw F.data j)) ∧
    (∀ j : Nat, j < F.data.preNu → UnitShown (getPreFissionNeutronDircosu F.data j)
      (getPreFissionNeutronDircosv F.data j) (getPreFissionNeutronDircosw F.data j)) := by
  obtain ⟨o, rl, rh, l, hv, t1, t2, t3, t4, t5, h1, h2, h3, h4, h5, h6, h7, h8, h9, _⟩ := event_ok h
  obtain ⟨a1, a2⟩ := C37_momentum h1 hq
  obtain ⟨bl, _, _, _, _, _, _, wl, nl, gl, fl, pl⟩ := fragTail_ok h2
  obtain ⟨bh, _, _, _, _, _, _, wh, nh, gh, fh, ph⟩ := fragTail_ok h3
  have hplen : i.npre ≤ (o.pre.map fun e => (⟨e.v 0, e.v 1, e.v 2⟩ : PreNeutron ℝ)).length := by
    rw [List.length_map]; omega
  obtain ⟨e, he, n1, n2, n3, _, ju, jv, jw, _, _, cu, cv, cw, _, pu, pv, pw, _⟩ :=
    C04_event_lists Real.sqrt k.mn time l.rcd hv.rcd wl wh i.npre _ hplen
  rw [h5] at he
  injection he with he
  subst he
  have key : ∀ (gu gv gw : Int → Res ℝ) (lu lv lw hu hv' hw : List ℝ) (nL nH : Nat),
      Joined gu id lu hu nL nH → Joined gv id lv hv' nL nH → Joined gw id lw hw nL nH →
      (∀ j : Nat, j < nL → ∃ v : V3, nsq v ≠ 0 ∧ lu[j]? = some (v 0 / Real.sqrt (nsq v)) ∧
        lv[j]? = some (v 1 / Real.sqrt (nsq v)) ∧ lw[j]? = some (v 2 / Real.sqrt (nsq v))) →
      (∀ j : Nat, j < nH → ∃ v : V3, nsq v ≠ 0 ∧ hu[j]? = some (v 0 / Real.sqrt (nsq v)) ∧
        hv'[j]? = some (v 1 / Real.sqrt (nsq v)) ∧ hw[j]? = some (v 2 / Real.sqrt (nsq v))) →
      ∀ j : Nat, j < nL + nH → UnitShown (gu j) (gv j) (gw j) := by
    intro gu gv gw lu lv lw hu hv' hw nL nH J1 J2 J3 L H j hj
    by_cases hjl : j < nL
    · obtain ⟨v, v0, v1, v2, v3⟩ := L j hjl
      obtain ⟨x1, y1, z1⟩ := J1.1 j hjl
      obtain ⟨x2, y2, z2⟩ := J2.1 j hjl
      obtain ⟨x3, y3, z3⟩ := J3.1 j hjl
      rw [v1] at y1; rw [v2] at y2; rw [v3] at y3
      injection y1 with y1; injection y2 with y2; injection y3 with y3
      subst y1; subst y2; subst y3
      refine ⟨_, _, _, z1, z2, z3, ?_⟩
      have := unit_of_div v0
      simp only [nsq, id] at this ⊢
      rw [← this]; ring
    · obtain ⟨v, v0, v1, v2, v3⟩ := H (j - nL) (by omega)
      have hcast : ((nL : Int) + (j - nL : Nat)) = (j : Int) := by omega
      obtain ⟨x1, y1, z1⟩ := J1.2.1 (j - nL) (by omega)
      obtain ⟨x2, y2, z2⟩ := J2.2.1 (j - nL) (by omega)
      obtain ⟨x3, y3, z3⟩ := J3.2.1 (j - nL) (by omega)
      rw [hcast] at z1 z2 z3
      rw [v1] at y1; rw [v2] at y2; rw [v3] at y3
      injection y1 with y1; injection y2 with y2; injection y3 with y3
      subst y1; subst y2; subst y3
      refine ⟨_, _, _, z1, z2, z3, ?_⟩
      have := unit_of_div v0
      simp only [nsq, id] at this ⊢
      rw [← this]; ring
  have getN : ∀ {b : Boosted} {j : Nat}, j < b.n.length → ∃ e, b.n[j]? = some e :=
    fun hj => ⟨_, List.getElem?_eq_getElem hj⟩
  have getG : ∀ {b : Boosted} {j : Nat}, j < b.g.length → ∃ e, b.g[j]? = some e :=
    fun hj => ⟨_, List.getElem?_eq_getElem hj⟩
  refine ⟨fun j hj => ⟨?_, ?_⟩, fun j hj => ?_, fun j hj => ?_⟩
  · refine key _ _ _ _ _ _ _ _ _ _ _ ju jv jw ?_ ?_ j (by omega)
    · intro j hj
      obtain ⟨e, he⟩ := getN (b := bl) (j := j) (by omega)
      obtain ⟨q1, q2, q3, q4, q5, q6, q7⟩ := fl j e he
      exact ⟨e.v, q1, q4, q5, q6⟩
    · intro j hj
      obtain ⟨e, he⟩ := getN (b := bh) (j := j) (by omega)
      obtain ⟨q1, q2, q3, q4, q5, q6, q7⟩ := fh j e he
      exact ⟨e.v, q1, q4, q5, q6⟩
  · refine key _ _ _ _ _ _ _ _ _ _ _ cu cv cw ?_ ?_ j (by omega)
    · intro j hj
      obtain ⟨e, he⟩ := getN (b := bl) (j := j) (by omega)
      obtain ⟨q1, q2, q3, q4, q5, q6, q7, q8, q9⟩ := fl j e he
      exact ⟨e.vcm, q2, q7, q8, q9⟩
    · intro j hj
      obtain ⟨e, he⟩ := getN (b := bh) (j := j) (by omega)
      obtain ⟨q1, q2, q3, q4, q5, q6, q7, q8, q9⟩ := fh j e he
      exact ⟨e.vcm, q2, q7, q8, q9⟩
  · refine key _ _ _ _ _ _ _ _ _ _ _ pu pv pw ?_ ?_ j (by omega)
    · intro j hj
      obtain ⟨e, he⟩ := getG (b := bl) (j := j) (by omega)
      obtain ⟨q1, q2, q3, q4, q5⟩ := pl j e he
      exact ⟨e.lab, q1, q3, q4, q5⟩
    · intro j hj
      obtain ⟨e, he⟩ := getG (b := bh) (j := j) (by omega)
      obtain ⟨q1, q2, q3, q4, q5⟩ := ph j e he
      exact ⟨e.lab, q1, q3, q4, q5⟩
  · rw [n3] at hj
    have hjl : j < o.pre.length := by omega
    have he := List.getElem?_eq_getElem hjl
    obtain ⟨c1, c2, c3, c4⟩ := pre_getters hplen h5 hj (p := ⟨o.pre[j].v 0, o.pre[j].v 1, o.pre[j].v 2⟩)
      (by rw [List.getElem?_map, he]; rfl)
    refine ⟨_, _, _, c2, c3, c4, ?_⟩
    have hne := h4 _ (mem_take_of_get he hj)
    have hv2 : (⟨o.pre[j].v 0, o.pre[j].v 1, o.pre[j].v 2⟩ : PreNeutron ℝ).v2 = nsq o.pre[j].v := by
      simp [PreNeutron.v2, nsq]
    rw [hv2]
    have := unit_of_div hne
    simp only [nsq] at this ⊢
    rw [← this]; ring

/-- **C40.**  The fragment kinetic energies add up to TKE and belong to equal and opposite momenta. -/
theorem C40_split {ml mh : ℝ} (tke : ℝ) (hl : 0 < ml) (hh : 0 < mh) :
    (keSplit ml mh tke).1 + (keSplit ml mh tke).2 = tke ∧
    ml * (keSplit ml mh tke).1 = mh * (keSplit ml mh tke).2 ∧
    (0 ≤ tke → 0 ≤ (keSplit ml mh tke).1 ∧ 0 ≤ (keSplit ml mh tke).2) ∧
    ∀ p : Fin 3 → ℝ, kineticOf ml p = (keSplit ml mh tke).1 →
      kineticOf mh (fun j => -p j) = (keSplit ml mh tke).2 := by
  have hs : ml + mh ≠ 0 := by positivity
  unfold keSplit
  refine ⟨by field_simp; ring, by field_simp, fun h => ⟨by positivity, by positivity⟩, ?_⟩
  intro p hp
  simp only [kineticOf, dot] at hp ⊢
  simp only [neg_mul_neg]
  have : ∑ i, p i * p i = 2 * ml * (tke * mh / (ml + mh)) := by
    rw [← hp]; field_simp
  rw [this]
  field_simp

/-- 180 MeV between masses 100 and 140. -/
example : keSplit 100 140 180 = (105, 75) ∧ (100 : ℝ) * 105 = 140 * 75 := by
  constructor
  · unfold keSplit; norm_num
  · norm_num

/-- **C66.**  When the fissioning nucleus is at rest the kinetic energies reported for the fragments are
those of the fragment momenta computed by `boost_pfn`. -/
theorem C66_momenta_partial {k : Const} {i : PfnIn} {o : PfnOut} {s s' : List ℝ}
    (h : boostPfn k i s = .ok (o, s')) (hen : i.en = 0) (hpre : i.npre = 0) (hq : i.preeq = none)
    {ml mh : ℝ} (h1 : k.mass i.zl i.al = .ok ml) (h2 : k.mass i.zh i.ah = .ok mh) (hl : 0 < ml) (hh : 0 < mh) :
    kineticOf ml o.light = (keSplit ml mh i.tke).1 ∧ kineticOf mh o.heavy = (keSplit ml mh i.tke).2 := by
  obtain ⟨a1, ml', mh', a2, a3, a4⟩ := C66_at_rest h hen hpre hq
  rw [h1] at a2; rw [h2] at a3
  injection a2 with a2; injection a3 with a3
  subst a2; subst a3
  have hv : o.heavy = fun j => -o.light j := funext fun j => by linarith [a1 j]
  have hs : ml + mh ≠ 0 := by positivity
  rw [hv] at a4 ⊢
  simp only [kineticOf, dot, neg_mul_neg] at a4 ⊢
  generalize ∑ i, o.light i * o.light i = w at *
  have hw : w * (ml + mh) = 2 * ml * mh * i.tke := by
    rw [← a4]; field_simp; ring
  unfold keSplit
  constructor
  · rw [div_eq_div_iff (by positivity) hs, hw]; ring
  · rw [div_eq_div_iff (by positivity) hs, hw]; ring

/-- **C66, refuted for a moving nucleus.**  In the pre-equilibrium run above the light fragment's
reported kinetic energy is not that of its momentum. -/
theorem C66_moving_refuted : ∃ (k : Const) (i : PfnIn) (o : PfnOut) (s s' : List ℝ) (ml mh : ℝ),
    boostPfn k i s = .ok (o, s') ∧ k.mass i.zl i.al = .ok ml ∧ k.mass i.zh i.ah = .ok mh ∧
    kineticOf ml o.light ≠ (keSplit ml mh i.tke).1 := by
  obtain ⟨o, s', h1, h2, h3⟩ := preeq_run
  refine ⟨unitWorld, preeqIn, o, _, s', 1, 2, h1, ?_, ?_, ?_⟩
  · rw [unitWorld_mass]; norm_num [preeqIn]
  · rw [unitWorld_mass]; norm_num [preeqIn]
  · rw [h2]
    norm_num [kineticOf, dot_sq, nsq_vec, preeqIn, keSplit]

/-- **C41 (part that holds).**  For a fragment slower than light every photon of positive energy keeps a
positive laboratory energy within the Doppler limits, along the direction drawn; the shift is
`sqrt(1-b²)/(1-b n_x)` with `n_x` the `x` component of the direction.  Missing: the component along the
fragment's velocity and the transformation of the direction; see the refutations below. -/
theorem C41_limits_partial {k : Const} {pf mf eg : ℝ} {g : Photon} {s s' : List ℝ}
    (h : photonBoost k pf mf eg s = .ok (g, s')) (hg : 0 < eg) (h0 : 0 ≤ pf) (h1 : pf < mf) :
    0 < g.energy ∧
    eg * Real.sqrt ((1 - pf / mf) / (1 + pf / mf)) ≤ g.energy ∧
    g.energy ≤ eg * Real.sqrt ((1 + pf / mf) / (1 - pf / mf)) ∧
    ∃ n : Fin 3 → ℝ, IsUnit3 n ∧ (∀ j, g.cm j = eg * n j) ∧ (∀ j, g.lab j = g.energy * n j) ∧
      g.energy * (1 - pf / mf * n 0) = eg * Real.sqrt (1 - (pf / mf) ^ 2) := by
  obtain ⟨n, hn, hm, hb, hd, he, hcm, hlab⟩ := photonBoost_ok h
  have hmf : 0 < mf := lt_of_le_of_lt h0 h1
  have hb0 : 0 ≤ pf / mf := by positivity
  have hb1 : pf / mf < 1 := by rw [div_lt_one hmf]; exact h1
  generalize pf / mf = b at *
  have hn0 : n 0 * n 0 ≤ 1 := by
    unfold nsq at hn; nlinarith [mul_self_nonneg (n 1), mul_self_nonneg (n 2)]
  have hn1 : n 0 ≤ 1 := by nlinarith
  have hn2 : -1 ≤ n 0 := by nlinarith
  have d1 : 0 < 1 - b * n 0 := by nlinarith
  have q2 : Real.sqrt (1 - b * b) * Real.sqrt (1 - b * b) = 1 - b * b := Real.mul_self_sqrt hb
  have hbb : 0 < 1 - b * b := by nlinarith
  have q0 : 0 < Real.sqrt (1 - b * b) := Real.sqrt_pos.mpr hbb
  have s1 : Real.sqrt ((1 - b) / (1 + b)) = Real.sqrt (1 - b * b) / (1 + b) := by
    rw [Real.sqrt_eq_iff_mul_self_eq (by apply div_nonneg <;> linarith) (by positivity)]
    have : (1 + b) ≠ 0 := by linarith
    rw [div_mul_div_comm, q2, div_eq_div_iff this (by positivity)]
    ring
  have s2 : Real.sqrt ((1 + b) / (1 - b)) = Real.sqrt (1 - b * b) / (1 - b) := by
    have hpos : 0 < 1 - b := by linarith
    rw [Real.sqrt_eq_iff_mul_self_eq (by apply div_nonneg <;> linarith) (by positivity)]
    have : (1 - b) ≠ 0 := by linarith
    rw [div_mul_div_comm, q2, div_eq_div_iff this (by positivity)]
    ring
  refine ⟨?_, ?_, ?_, n, by rw [IsUnit3, dot_sq]; exact hn, fun j => by rw [hcm], fun j => by rw [hlab], ?_⟩
  · rw [he]; positivity
  · rw [he, s1, ← mul_div_assoc]
    apply div_le_div_of_nonneg_left (by positivity) d1
    nlinarith
  · rw [he, s2, ← mul_div_assoc]
    apply div_le_div_of_nonneg_left (by positivity) (by linarith)
    nlinarith
  · rw [he, pow_two]; field_simp

/-- **C41 (part that holds).**  For a fragment moving along `+x` and a photon emitted along the `x` axis
the laboratory energy is the relativistic Doppler shift. -/
theorem C41_axis_partial {k : Const} {pf mf eg : ℝ} {g : Photon} {s s' : List ℝ}
    (h : photonBoost k pf mf eg s = .ok (g, s')) (hg : 0 < eg) (h0 : 0 ≤ pf) (h1 : pf < mf)
    (n : Fin 3 → ℝ) (hcm : ∀ j, g.cm j = eg * n j) (hx : n 0 * n 0 = 1) :
    g.energy = doppler ![pf / mf, 0, 0] n eg := by
  obtain ⟨n', hn, hm, hb, hd, he, hcm', hlab⟩ := photonBoost_ok h
  have hmf : 0 < mf := lt_of_le_of_lt h0 h1
  have hb0 : 0 ≤ pf / mf := by positivity
  have hb1 : pf / mf < 1 := by rw [div_lt_one hmf]; exact h1
  have hnn : n' 0 = n 0 := by
    have h1 := hcm 0
    rw [hcm'] at h1
    exact mul_left_cancel₀ hg.ne' h1
  rw [hnn] at hd he
  simp only [doppler, dot, Fin.sum_univ_three, Matrix.cons_val_zero, Matrix.cons_val_one, Matrix.cons_val,
    zero_mul, add_zero, mul_zero]
  generalize pf / mf = b at *
  have hbb : 0 < 1 - b * b := by nlinarith
  have q0 : 0 < Real.sqrt (1 - b * b) := Real.sqrt_pos.mpr hbb
  have q2 : Real.sqrt (1 - b * b) * Real.sqrt (1 - b * b) = 1 - b * b := Real.mul_self_sqrt hb
  rw [he]
  generalize Real.sqrt (1 - b * b) = q at *
  have : q ≠ 0 := q0.ne'
  rw [div_eq_iff hd]
  field_simp
  linear_combination q2 + b * b * hx

theorem photon_run (r2 c : ℝ) (hc : c = 2 * r2 - 1) (h0 : -1 ≤ c) (h1 : c ≤ 1) :
    ∃ g, photonBoost unitWorld 3 5 1 [0, r2] = .ok (g, []) ∧ g.energy = (4 / 5) / (1 - 3 / 5 * c) ∧
      g.cm = ![c, Real.sqrt (1 - c ^ 2), 0] := by
  subst hc
  unfold photonBoost
  have hq : Real.sqrt (1 - 3 / 5 * (3 / 5)) = 4 / 5 := by
    rw [show (1 - 3 / 5 * (3 / 5) : ℝ) = (4 / 5) * (4 / 5) by norm_num]
    exact Real.sqrt_mul_self (by norm_num)
  have hcos := Real.cos_arccos h0 h1
  rw [Rnd.bind_of_ok (Rnd.draw_cons _ _), Rnd.bind_of_ok (Rnd.draw_cons _ _),
    Rnd.bind_of_ok (needs_run ⟨h0, h1⟩ _), Rnd.bind_of_ok (needs_run (by norm_num) _),
    Rnd.bind_of_ok (sqrtR_run (by norm_num) _), Rnd.bind_of_ok (needs_run (by rw [hcos]; nlinarith) _), hq, hcos]
  refine ⟨_, rfl, by norm_num, ?_⟩
  simp [Real.sin_arccos]

/-- **C41, refuted (angle).**  A fragment moving along `z` at three fifths of the speed of light
emits a photon along `x`: the energy is 2 instead of the Doppler value 5/4. -/
theorem C41_angle_refuted : ∃ (k : Const) (p : Fin 3 → ℝ) (mf eg : ℝ) (g : Photon) (s s' : List ℝ)
    (n : Fin 3 → ℝ), dot p p < mf ^ 2 ∧ 0 < mf ∧ IsUnit3 n ∧
    photonBoost k (Real.sqrt (nsq p)) mf eg s = .ok (g, s') ∧ (∀ j, g.cm j = eg * n j) ∧
    g.energy ≠ doppler (fun j => p j / mf) n eg := by
  obtain ⟨g, h1, h2, h3⟩ := photon_run 1 1 (by norm_num) (by norm_num) (by norm_num)
  have hp : Real.sqrt (nsq ![0, 0, 3]) = 3 := by
    rw [nsq_vec]
    norm_num
    rw [show (9 : ℝ) = 3 * 3 by norm_num]
    exact Real.sqrt_mul_self (by norm_num)
  refine ⟨unitWorld, ![0, 0, 3], 5, 1, g, [0, 1], [], ![1, 0, 0], ?_, by norm_num, ?_, by rw [hp]; exact h1, ?_, ?_⟩
  · rw [dot_sq, nsq_vec]; norm_num
  · rw [IsUnit3, dot_sq, nsq_vec]; norm_num
  · intro j
    rw [h3]
    fin_cases j <;> norm_num
  · rw [h2]
    have hd : doppler (fun j => (![0, 0, 3] : V3) j / 5) ![1, 0, 0] 1 = 5 / 4 := by
      have e1 : dot (fun j => (![0, 0, 3] : V3) j / 5) ![1, 0, 0] = 0 := by
        simp [dot, Fin.sum_univ_three]
      have e2 : dot (fun j => (![0, 0, 3] : V3) j / 5) (fun j => (![0, 0, 3] : V3) j / 5) = 9 / 25 := by
        simp [dot, Fin.sum_univ_three]; norm_num
      have e3 : Real.sqrt (1 - 9 / 25) = 4 / 5 := by
        rw [show (1 - 9 / 25 : ℝ) = (4 / 5) * (4 / 5) by norm_num]
        exact Real.sqrt_mul_self (by norm_num)
      unfold doppler
      rw [e1, e2, e3]; norm_num
    rw [hd]
    norm_num

/-- **C41, refuted (formula).**  Even for a fragment moving along `x`, a photon emitted at right angles
is red-shifted to 4/5 where the Doppler formula for the emission angle in the fragment frame gives
5/4. -/
theorem C41_formula_refuted : ∃ (k : Const) (pf mf eg : ℝ) (g : Photon) (s s' : List ℝ)
    (n : Fin 3 → ℝ), 0 ≤ pf ∧ pf < mf ∧ IsUnit3 n ∧
    photonBoost k pf mf eg s = .ok (g, s') ∧ (∀ j, g.cm j = eg * n j) ∧
    g.energy ≠ doppler ![pf / mf, 0, 0] n eg := by
  obtain ⟨g, h1, h2, h3⟩ := photon_run (1 / 2) 0 (by norm_num) (by norm_num) (by norm_num)
  refine ⟨unitWorld, 3, 5, 1, g, _, [], ![0, 1, 0], by norm_num, by norm_num, ?_, h1, ?_, ?_⟩
  · rw [IsUnit3, dot_sq, nsq_vec]; norm_num
  · intro j
    rw [h3]
    fin_cases j <;> norm_num
  · rw [h2]
    have hd : doppler ![3 / 5, 0, 0] ![0, 1, 0] 1 = 5 / 4 := by
      have e1 : dot ![3 / 5, 0, 0] ![0, 1, 0] = 0 := by
        simp [dot, Fin.sum_univ_three]
      have e2 : dot ![3 / 5, 0, 0] ![3 / 5, 0, 0] = 9 / 25 := by
        rw [dot_sq, nsq_vec]; norm_num
      have e3 : Real.sqrt (1 - 9 / 25) = 4 / 5 := by
        rw [show (1 - 9 / 25 : ℝ) = (4 / 5) * (4 / 5) by norm_num]
        exact Real.sqrt_mul_self (by norm_num)
      unfold doppler
      rw [e1, e2, e3]; norm_num
    rw [hd]
    norm_num

example : ∃ g, photonBoost unitWorld 3 5 1 [0, 1 / 4] = .ok (g, []) ∧ 0 < g.energy := by
  obtain ⟨g, h, _⟩ := photon_run (1 / 4) (-1 / 2) (by norm_num) (by norm_num) (by norm_num)
  exact ⟨g, h, (C41_limits_partial h (by norm_num) (by norm_num) (by norm_num)).1⟩

end CGMF.Props

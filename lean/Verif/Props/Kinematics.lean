import Verif.Proofs.Kinematics
import Verif.Props.Event

/-!
# C35-C41: kinematics
-/

set_option linter.unusedSectionVars false
set_option linter.unusedSimpArgs false

namespace CGMF.Props

open CGMF CGMF.Kin CGMF.Spec CGMF.Event

/-- **C35.**  Every completed neutron emission from nucleus `(z, a)`, for any momentum, energy and
angular table: momentum is conserved, the laboratory energy is the kinetic energy of the laboratory
velocity, the centre-of-mass velocity carries exactly the centre-of-mass energy, the laboratory
velocity is the centre-of-mass velocity plus the velocity of the nucleus, and in the frame of the
nucleus the recoil is opposite to the neutron. -/
theorem C35_momentum {k : Const} {z a : Int} {p p' : V3} {ecm : ℝ} {tab : Option (List (ℝ × ℝ))}
    {s s' : List ℝ} {e : Emit} (h : neutronBoost k z a p ecm tab s = .ok ((e, p'), s')) :
    ∃ m, k.mass z a = .ok m ∧
      (∀ i, p i = p' i + k.mn * e.v i) ∧
      e.energy = kinetic k.mn e.v ∧
      kinetic k.mn e.vcm = ecm ∧
      (∀ i, e.v i = e.vcm i + p i / m) ∧
      ∀ i, p' i - (m - k.mn) * (p i / m) = -(k.mn * e.vcm i) := by
  obtain ⟨m, r, c, s3, hm, _, _, hm0, hmn, hc, hv, hvcm, hev, hen, hp1⟩ := neutronBoost_ok h
  refine ⟨m, hm, fun i => by rw [hp1]; ring, ?_, ?_, fun i => by rw [hev], ?_⟩
  · rw [hen, kinetic, dot_sq]; ring
  · rw [kinetic, dot_sq, hvcm, direction_sq _ _ _ hc, Real.mul_self_sqrt hv]
    field_simp
  · intro i
    rw [hp1]
    simp only [hev]
    field_simp
    ring

/-- **C35.**  The emission always completes when the mass is known and non-zero, the energy
non-negative and the second random number in `[0, 1]` (isotropic emission). -/
theorem C35_defined {k : Const} {z a : Int} (p : V3) {ecm m r1 r2 : ℝ} (s : List ℝ)
    (hm : k.mass z a = .ok m) (hm0 : m ≠ 0) (hmn : 0 < k.mn) (he : 0 ≤ ecm) (h0 : 0 ≤ r2) (h1 : r2 ≤ 1) :
    ∃ e p', neutronBoost k z a p ecm none (r1 :: r2 :: s) = .ok ((e, p'), s) := by
  obtain ⟨e, p', h, _⟩ := neutronBoost_run (p := p) (ecm := ecm) (tab := none) (r := r1) (s := r2 :: s)
    (s1 := s) (c := 2 * r2 - 1) hm rfl (by nlinarith) hm0 hmn.ne' (by positivity)
  exact ⟨e, p', h⟩

/-- A world for the examples: mass number equals mass, neutrons of mass one. -/
noncomputable def unitWorld : Const := ⟨1, 1, 6, fun _ _ => .ok 0, fun _ _ => .ok 0⟩

theorem unitWorld_mass (z a : Int) : unitWorld.mass z a = .ok (a : ℝ) := by
  simp [Const.mass, unitWorld]

theorem unitWorld_massT (z a : Int) : unitWorld.massT z a = .ok (a : ℝ) := by
  simp [Const.massT, unitWorld]

theorem unitWorld_mn : unitWorld.mn = 1 := by simp [Const.mn, unitWorld]

example : ∃ e p', neutronBoost unitWorld 30 80 ![1, 2, 3] 2 none [1 / 3, 1 / 4] = .ok ((e, p'), []) :=
  C35_defined _ [] (unitWorld_mass 30 80) (by norm_num) (by rw [unitWorld_mn]; norm_num) (by norm_num)
    (by norm_num) (by norm_num)

/-- **C36.**  Any number of neutrons from one fragment: the initial momentum is the final momentum
plus the momenta of all neutrons; neutron `j` has the prescribed centre-of-mass energy, and its
laboratory velocity is its centre-of-mass velocity plus the velocity of the nucleus that already lost
`j` neutrons, computed with the momentum left by the neutrons before it. -/
theorem C36_chain {k : Const} {z a : Int} {p q : V3} {ns : List ℝ} {es : List Emit} {s s' : List ℝ}
    (h : boostNeutrons k z a p ns s = .ok ((es, q), s')) :
    es.length = ns.length ∧
    (∀ i, p i = q i + (es.map fun e => k.mn * e.v i).sum) ∧
    ∀ (j : Nat) (e : Emit), es[j]? = some e → ∃ ecm m, ns[j]? = some ecm ∧ k.mass z (a - j) = .ok m ∧
      kinetic k.mn e.vcm = ecm ∧ e.energy = kinetic k.mn e.v ∧
      ∀ i, e.v i = e.vcm i + (p i - ((es.take j).map fun e => k.mn * e.v i).sum) / m := by
  obtain ⟨h1, h2, h3⟩ := boostNeutrons_ok h
  refine ⟨h1, h2, ?_⟩
  intro j e hj
  obtain ⟨ecm, m, j1, j2, j3, j4, j5, j6, j7, j8⟩ := h3 j e hj
  refine ⟨ecm, m, j1, j2, ?_, ?_, j8⟩
  · rw [kinetic, dot_sq, j6]; field_simp
  · rw [kinetic, dot_sq, j7]; ring

theorem pad_get {n j : Nat} {xs : List ℝ} (h : j < xs.length) : (Kin.pad n xs)[j]? = xs[j]? := by
  unfold Kin.pad
  rw [List.getElem?_append_left h]

theorem pad_length {n : Nat} {xs : List ℝ} (h : xs.length ≤ n) : (Kin.pad n xs).length = n := by
  unfold Kin.pad
  rw [List.length_append, List.length_replicate]
  omega

/-- What a completed fragment record contains. -/
theorem fragTail_ok {k : Const} {z a : Int} {pre : V3} {r : MC.Rec ℝ} {o : FragOut} {s s' : List ℝ}
    (h : fragTail k z a pre r s = .ok (o, s')) :
    ∃ b s1 m, boost k z a pre r.n (r.g.map Prod.fst) s = .ok (b, s1) ∧ o.post = b.post ∧
      k.mass z a = .ok m ∧ o.kePost = nsq b.post / (2 * m) ∧
      WellFormed o.rcd ∧ o.rcd.nu = b.n.length ∧ o.rcd.nug = b.g.length ∧
      (∀ (j : Nat) (e : Emit), b.n[j]? = some e → nsq e.v ≠ 0 ∧ nsq e.vcm ≠ 0 ∧
        o.rcd.neutronEnergies[j]? = some e.energy ∧
        o.rcd.neutronDircosu[j]? = some (e.v 0 / Real.sqrt (nsq e.v)) ∧
        o.rcd.neutronDircosv[j]? = some (e.v 1 / Real.sqrt (nsq e.v)) ∧
        o.rcd.neutronDircosw[j]? = some (e.v 2 / Real.sqrt (nsq e.v)) ∧
        o.rcd.cmNeutronDircosu[j]? = some (e.vcm 0 / Real.sqrt (nsq e.vcm)) ∧
        o.rcd.cmNeutronDircosv[j]? = some (e.vcm 1 / Real.sqrt (nsq e.vcm)) ∧
        o.rcd.cmNeutronDircosw[j]? = some (e.vcm 2 / Real.sqrt (nsq e.vcm))) ∧
      (∀ (j : Nat) (g : Photon), b.g[j]? = some g → nsq g.lab ≠ 0 ∧
        o.rcd.photonEnergies[j]? = some g.energy ∧
        o.rcd.photonDircosu[j]? = some (g.lab 0 / Real.sqrt (nsq g.lab)) ∧
        o.rcd.photonDircosv[j]? = some (g.lab 1 / Real.sqrt (nsq g.lab)) ∧
        o.rcd.photonDircosw[j]? = some (g.lab 2 / Real.sqrt (nsq g.lab))) := by
  unfold fragTail at h
  replace h := Rnd.bind_ok.mp h
  obtain ⟨_, s0, h0, h⟩ := h
  obtain ⟨⟨hn, hg⟩, rfl⟩ := needs_ok.mp h0
  replace h := Rnd.bind_ok.mp h
  obtain ⟨b, s1, h1, h⟩ := h
  replace h := Rnd.bind_ok.mp h
  obtain ⟨m, s2, h2, h⟩ := h
  obtain ⟨hm, rfl⟩ := Rnd.lift_ok.mp h2
  replace h := Rnd.bind_ok.mp h
  obtain ⟨_, s3, h3, h⟩ := h
  obtain ⟨hm0, rfl⟩ := needs_ok.mp h3
  replace h := Rnd.bind_ok.mp h
  obtain ⟨dn, s4, h4, h⟩ := h
  obtain ⟨rfl, l1, d1⟩ := dircosAll_ok h4
  replace h := Rnd.bind_ok.mp h
  obtain ⟨dc, s5, h5, h⟩ := h
  obtain ⟨rfl, l2, d2⟩ := dircosAll_ok h5
  replace h := Rnd.bind_ok.mp h
  obtain ⟨dg, s6, h6, h⟩ := h
  obtain ⟨rfl, l3, d3⟩ := dircosAll_ok h6
  obtain ⟨h7, rfl⟩ := Rnd.pure_ok.mp h
  obtain ⟨t1, t2, mf, e1, e2, e3⟩ := boost_ok h1
  obtain ⟨f1, _, _⟩ := boostNeutrons_ok e1
  obtain ⟨f2, _⟩ := photons_ok e3
  simp only [List.length_map] at l1 l2 l3 f2
  have hmn : maxNeutrons = 10 := rfl
  have hmg : maxGammas = 50 := rfl
  subst h7
  refine ⟨b, s6, m, h1, rfl, hm, by simp, ⟨by rw [hmn] at hn; exact hn, by rw [hmg] at hg; exact hg, ?_, ?_⟩, f1.symm, f2.symm,
    ?_, ?_⟩
  · intro l hl
    simp only [List.mem_cons, List.not_mem_nil, or_false] at hl
    rcases hl with rfl | rfl | rfl | rfl | rfl | rfl | rfl | rfl <;>
      exact pad_length (by first | (simp only [List.length_map]; omega) | omega)
  · intro l hl
    simp only [List.mem_cons, List.not_mem_nil, or_false] at hl
    rcases hl with rfl | rfl | rfl | rfl | rfl <;>
      exact pad_length (by first | (simp only [List.length_map]; omega) | omega)
  · intro j e hj
    have hjl : j < b.n.length := (List.getElem?_eq_some_iff.mp hj).1
    have k1 : dn[j]? = some dn[j] := List.getElem?_eq_getElem (by omega)
    have k2 : dc[j]? = some dc[j] := List.getElem?_eq_getElem (by omega)
    obtain ⟨v, a1, a2, a3⟩ := d1 j _ k1
    obtain ⟨w, b1, b2, b3⟩ := d2 j _ k2
    rw [List.getElem?_map, hj] at a1 b1
    injection a1 with a1
    injection b1 with b1
    subst a1; subst b1
    refine ⟨a2, b2, ?_, ?_, ?_, ?_, ?_, ?_, ?_⟩ <;> dsimp only <;> rw [pad_get (by simp only [List.length_map]; omega)] <;>
      simp only [List.getElem?_map, hj, k1, k2, Option.map_some] <;> simp only [a3, b3]
  · intro j g hj
    have hjl : j < b.g.length := (List.getElem?_eq_some_iff.mp hj).1
    have k1 : dg[j]? = some dg[j] := List.getElem?_eq_getElem (by omega)
    obtain ⟨v, a1, a2, a3⟩ := d3 j _ k1
    rw [List.getElem?_map, hj] at a1
    injection a1 with a1
    subst a1
    refine ⟨a2, ?_, ?_, ?_, ?_⟩ <;> dsimp only <;> rw [pad_get (by simp only [List.length_map]; omega)] <;>
      simp only [List.getElem?_map, hj, k1, Option.map_some] <;> simp only [a3]

/-- **C36.**  The fragment record: initial momentum equals the reported final momentum plus the momenta
recomputed from the stored neutron energies and direction cosines. -/
theorem C36_record {k : Const} (hmn : 0 < k.mn) {z a : Int} {pre : V3} {r : MC.Rec ℝ} {o : FragOut}
    {s s' : List ℝ} (h : fragTail k z a pre r s = .ok (o, s')) :
    ∃ ps : List V3, ps.length = o.rcd.nu ∧ o.rcd.nu = r.n.length ∧
      (∀ (j : Nat) (p : V3), ps[j]? = some p → ∃ e u v w,
        o.rcd.neutronEnergies[j]? = some e ∧ o.rcd.neutronDircosu[j]? = some u ∧
        o.rcd.neutronDircosv[j]? = some v ∧ o.rcd.neutronDircosw[j]? = some w ∧
        p = Real.sqrt (2 * k.mn * e) • ![u, v, w]) ∧
      pre = o.post + ps.sum := by
  obtain ⟨b, s1, m, h1, h2, h3, h4, h5, h6, h7, h8, h9⟩ := fragTail_ok h
  obtain ⟨t1, t2, mf, e1, e2, e3⟩ := boost_ok h1
  obtain ⟨f1, f2, f3⟩ := boostNeutrons_ok e1
  refine ⟨b.n.map fun e => fun i => k.mn * e.v i, by simp [h6], by omega, ?_, ?_⟩
  · intro j p hp
    rw [List.getElem?_map, Option.map_eq_some_iff] at hp
    obtain ⟨e, he, rfl⟩ := hp
    obtain ⟨a1, a2, a3, a4, a5, a6, _⟩ := h8 j e he
    refine ⟨_, _, _, _, a3, a4, a5, a6, ?_⟩
    obtain ⟨_, _, _, _, _, _, _, _, hen, _⟩ := f3 j e he
    rw [hen]
    funext i
    have := momentum_of_dir hmn a1 i
    fin_cases i <;> simpa using this.symm
  · rw [h2]
    funext i
    rw [f2 i, Pi.add_apply]
    congr 1
    unfold carried
    clear * -
    induction b.n with
    | nil => rfl
    | cons x xs ih => simp [ih]

/-- **C65 (reported kinetic energy).**  `KEpost` is the final momentum squared over twice the mass of
the fragment *before* emission.  Missing: it should be the mass after emission; see
`C65_kepost_refuted`. -/
theorem C65_kepost_partial {k : Const} {z a : Int} {pre : V3} {r : MC.Rec ℝ} {o : FragOut}
    {s s' : List ℝ} (h : fragTail k z a pre r s = .ok (o, s')) :
    ∃ m, k.mass z a = .ok m ∧ o.kePost = kineticOf m o.post := by
  obtain ⟨b, s1, m, h1, h2, h3, h4, _⟩ := fragTail_ok h
  exact ⟨m, h3, by rw [h4, kineticOf, dot_sq, h2]⟩

/-- Emission along `+z` in the example world. -/
theorem unit_emit (z a : Int) (ha : (a : ℝ) ≠ 0) (pz ecm n : ℝ) (hn : 0 ≤ n) (he : 2 * ecm = n * n)
    (s : List ℝ) :
    neutronBoost unitWorld z a ![0, 0, pz] ecm none (0 :: 1 :: s) =
      .ok ((⟨(n + pz / a) * (n + pz / a) * (1 / 2) , ![0, 0, n + pz / a], ![0, 0, n]⟩,
        ![0, 0, pz - (n + pz / a)]), s) := by
  have hmn := unitWorld_mn
  have hq : Real.sqrt (2 * ecm / unitWorld.mn) = n := by
    rw [hmn, div_one, he, Real.sqrt_mul_self hn]
  unfold neutronBoost
  rw [Rnd.bind_of_ok (Rnd.lift_ok.mpr ⟨unitWorld_mass z a, rfl⟩), Rnd.bind_of_ok (Rnd.draw_cons _ _),
    Rnd.bind_of_ok (show sampleCos none (1 :: s) = .ok (2 * 1 - 1, s) from rfl),
    Rnd.bind_of_ok (sqrtR_run (by norm_num) _), Rnd.bind_of_ok (needs_run (by rw [hmn]; norm_num) _),
    Rnd.bind_of_ok (sqrtR_run (by rw [hmn, he]; positivity) _), Rnd.bind_of_ok (needs_run ha _), hq]
  rw [Rnd.pure_run]
  have hv : (fun i => (![n * Real.sqrt (1 - (2 * 1 - 1) * (2 * 1 - 1)) * Real.cos (unitWorld.twopi * 0),
      n * Real.sqrt (1 - (2 * 1 - 1) * (2 * 1 - 1)) * Real.sin (unitWorld.twopi * 0), n * (2 * 1 - 1)] : V3) i +
      (![0, 0, pz] : V3) i / (a : ℝ)) = ![0, 0, n + pz / a] := by
    funext i
    fin_cases i
    all_goals norm_num
    all_goals simp
  have hc : (![n * Real.sqrt (1 - (2 * 1 - 1) * (2 * 1 - 1)) * Real.cos (unitWorld.twopi * 0),
      n * Real.sqrt (1 - (2 * 1 - 1) * (2 * 1 - 1)) * Real.sin (unitWorld.twopi * 0), n * (2 * 1 - 1)] : V3) =
      ![0, 0, n] := by
    norm_num
  rw [hv, hc, nsq_vec, hmn]
  congr 3
  · congr 1
    ring
  · funext i
    fin_cases i
    all_goals simp

/-- A fragment of mass number 2 and momentum 4 emitting one neutron along `z`. -/
theorem frag_run : ∃ o, fragTail unitWorld 1 2 ![0, 0, 4] ⟨[1 / 2], [], []⟩ [0, 1] = .ok (o, []) ∧
    o.kePost = 1 / 4 ∧ o.post = ![0, 0, 1] := by
  have e1 := unit_emit 1 2 (by norm_num) 4 (1 / 2) 1 (by norm_num) (by norm_num) []
  have e2 : boost unitWorld 1 2 ![0, 0, 4] [1 / 2] [] [0, 1] =
      .ok (⟨[⟨(1 + 4 / (2 : Int)) * (1 + 4 / (2 : Int)) * (1 / 2), ![0, 0, 1 + 4 / (2 : Int)], ![0, 0, 1]⟩], [],
        ![0, 0, 4 - (1 + 4 / (2 : Int))]⟩, []) := by
    unfold boost
    rw [Rnd.bind_of_ok (Rnd.lift_ok.mpr ⟨unitWorld_mass 1 2, rfl⟩)]
    have : boostNeutrons unitWorld 1 2 ![0, 0, 4] [1 / 2] [0, 1] =
      .ok (([⟨(1 + 4 / (2 : Int)) * (1 + 4 / (2 : Int)) * (1 / 2), ![0, 0, 1 + 4 / (2 : Int)], ![0, 0, 1]⟩],
        ![0, 0, 4 - (1 + 4 / (2 : Int))]), []) := by
      unfold boostNeutrons
      rw [Rnd.bind_of_ok e1]
      rfl
    rw [Rnd.bind_of_ok this, Rnd.bind_of_ok (Rnd.lift_ok.mpr ⟨unitWorld_massT _ _, rfl⟩)]
    rfl
  unfold fragTail
  rw [Rnd.bind_of_ok (needs_run (by simp [maxNeutrons]) _), List.map_nil, Rnd.bind_of_ok e2,
    Rnd.bind_of_ok (Rnd.lift_ok.mpr ⟨unitWorld_mass _ _, rfl⟩), Rnd.bind_of_ok (needs_run (by norm_num) _)]
  have d (v : V3) (hv : nsq v ≠ 0) : dircosAll [v] [] = .ok ([fun i => v i / Real.sqrt (nsq v)], []) := by
    unfold dircosAll dircos
    rw [Rnd.bind_run, Rnd.bind_of_ok (needs_run hv _)]
    rfl
  rw [List.map_cons, List.map_nil, Rnd.bind_of_ok (d _ (by norm_num [nsq_vec])), List.map_cons, List.map_nil,
    Rnd.bind_of_ok (d _ (by norm_num [nsq_vec])), List.map_nil,
    Rnd.bind_of_ok (show dircosAll [] [] = .ok ([], []) from rfl)]
  refine ⟨_, rfl, by norm_num [nsq_vec], ?_⟩
  norm_num

/-- **C65 (reported kinetic energy), refuted.**  A fragment of mass number 2 and momentum 4 emits one
neutron; the reported kinetic energy is half the true one. -/
theorem C65_kepost_refuted : ∃ (k : Const) (z a : Int) (pre : V3) (r : MC.Rec ℝ) (o : FragOut)
    (s s' : List ℝ) (m : ℝ), fragTail k z a pre r s = .ok (o, s') ∧ r.n.length = 1 ∧
      k.mass z (a - 1) = .ok m ∧ o.kePost ≠ kineticOf m o.post := by
  obtain ⟨o, h1, h2, h3⟩ := frag_run
  refine ⟨unitWorld, 1, 2, _, _, o, _, _, 1, h1, rfl, by rw [unitWorld_mass]; norm_num, ?_⟩
  rw [h2, h3]
  norm_num [kineticOf, dot_sq, nsq_vec]

end CGMF.Props

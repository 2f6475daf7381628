import Verif.Props.KinEvent

/-!
# C04: the event shows the particles of the two de-excitations
-/

namespace CGMF.Props

open CGMF.Kin CGMF.Event CGMF.Spec

/-- The part of the record that is copied from the de-excitation. -/
theorem fragTail_copy {k : Const} {z a : Int} {pre : V3} {r : MC.Rec ℝ} {o : FragOut} {s s' : List ℝ}
    (h : fragTail k z a pre r s = .ok (o, s')) :
    o.rcd.nu = r.n.length ∧ o.rcd.nug = r.g.length ∧
      (∀ j : Nat, j < r.n.length → o.rcd.cmNeutronEnergies[j]? = r.n[j]?) ∧
      (∀ j : Nat, j < r.g.length → o.rcd.photonAges[j]? = (r.g.map Prod.snd)[j]?) := by
  unfold fragTail at h
  replace h := Rnd.bind_ok.mp h
  obtain ⟨_, s0, h0, h⟩ := h
  replace h := Rnd.bind_ok.mp h
  obtain ⟨b, s1, h1, h⟩ := h
  replace h := Rnd.bind_ok.mp h
  obtain ⟨m, s2, h2, h⟩ := h
  replace h := Rnd.bind_ok.mp h
  obtain ⟨_, s3, h3, h⟩ := h
  replace h := Rnd.bind_ok.mp h
  obtain ⟨dn, s4, h4, h⟩ := h
  replace h := Rnd.bind_ok.mp h
  obtain ⟨dc, s5, h5, h⟩ := h
  replace h := Rnd.bind_ok.mp h
  obtain ⟨dg, s6, h6, h⟩ := h
  obtain ⟨h7, rfl⟩ := Rnd.pure_ok.mp h
  subst h7
  refine ⟨rfl, rfl, ?_, ?_⟩
  · intro j hj
    exact pad_get hj
  · intro j hj
    exact pad_get (by rw [List.length_map]; exact hj)

/-- **C04.**  Every completed event: the multiplicities are those of the two de-excitations, the neutron energies in
the frame of the fragment are the emission energies of the light, then of the heavy fragment, and the age of each
photon is the emission time plus the time stamp of that photon. -/
theorem C04_decay {k : Const} {time : ℝ} {i : PfnIn} {decL decH : Rnd ℝ (MC.Rec ℝ)} {F : Full} {s s' : List ℝ}
    (h : event k time i decL decH s = .ok (F, s')) (hq : i.preeq.isSome → 1 ≤ i.npre) :
    ∃ rl rh s1 s2 s3 s4, decL s1 = .ok (rl, s2) ∧ decH s3 = .ok (rh, s4) ∧
      F.data.neutronNu = rl.n.length + rh.n.length ∧ F.data.photonNu = rl.g.length + rh.g.length ∧
      Joined (getCmNeutronEnergy F.data) id rl.n rh.n rl.n.length rh.n.length ∧
      Joined (getPhotonAge F.data) (fun d => time + d) (rl.g.map Prod.snd) (rh.g.map Prod.snd) rl.g.length rh.g.length := by
  unfold event at h
  replace h := Rnd.bind_ok.mp h
  obtain ⟨o, s0, h0, h⟩ := h
  replace h := Rnd.bind_ok.mp h
  obtain ⟨rl, s1, h1, h⟩ := h
  replace h := Rnd.bind_ok.mp h
  obtain ⟨l, s2, h2, h⟩ := h
  replace h := Rnd.bind_ok.mp h
  obtain ⟨rh, s3, h3, h⟩ := h
  replace h := Rnd.bind_ok.mp h
  obtain ⟨hv, s4, h4, h⟩ := h
  replace h := Rnd.bind_ok.mp h
  obtain ⟨_, s5, h5, h⟩ := h
  replace h := Rnd.bind_ok.mp h
  obtain ⟨d, s6, h6, h⟩ := h
  obtain ⟨h6', rfl⟩ := Rnd.lift_ok.mp h6
  obtain ⟨h7, rfl⟩ := Rnd.pure_ok.mp h
  subst h7
  obtain ⟨_, _, _, _, _, _, _, wl, _⟩ := fragTail_ok h2
  obtain ⟨_, _, _, _, _, _, _, wh, _⟩ := fragTail_ok h4
  obtain ⟨n1, g1, c1, t1⟩ := fragTail_copy h2
  obtain ⟨n2, g2, c2, t2⟩ := fragTail_copy h4
  obtain ⟨h50, rfl⟩ := needs_ok.mp h5
  have hp : i.npre ≤ (o.pre.map fun e => (⟨e.v 0, e.v 1, e.v 2⟩ : PreNeutron ℝ)).length := by
    rw [List.length_map, (C37_momentum h0 hq).1]
  obtain ⟨e, he, m1, m2, _, _, _, _, _, _, jc, _, _, _, _, _, _, _, ja⟩ :=
    C04_event_lists Real.sqrt k.mn time l.rcd hv.rcd wl wh i.npre _ hp
  rw [h6'] at he
  injection he with he
  subst he
  refine ⟨rl, rh, _, _, _, _, h1, h3, by rw [m1, n1, n2], by rw [m2, g1, g2], ?_, ?_⟩
  · rw [n1, n2] at jc
    refine ⟨fun j hj => ?_, fun j hj => ?_, jc.2.2⟩
    · rw [← c1 j hj]; exact jc.1 j hj
    · rw [← c2 j hj]; exact jc.2.1 j hj
  · rw [g1, g2] at ja
    refine ⟨fun j hj => ?_, fun j hj => ?_, ja.2.2⟩
    · rw [← t1 j hj]; exact ja.1 j hj
    · rw [← t2 j hj]; exact ja.2.1 j hj

/-- The event with one neutron of 1/2 MeV from the light fragment: its energy is shown by the getter. -/
example : ∃ F, event unitWorld 0 sfIn (pure ⟨[1 / 2], [], []⟩) (pure ⟨[], [], []⟩) [0, 1, 0, 1] = .ok (F, []) ∧
    getCmNeutronEnergy F.data 0 = .ok (1 / 2) := by
  obtain ⟨F, hF, _⟩ := sf_event
  refine ⟨F, hF, ?_⟩
  obtain ⟨rl, rh, s1, s2, s3, s4, h1, h2, _, _, h5, _⟩ := C04_decay hF (by simp [sfIn])
  obtain ⟨h1, _⟩ := Rnd.pure_ok.mp h1
  subst h1
  obtain ⟨x, hx, hg⟩ := h5.1 0 (by simp)
  simp only [List.getElem?_cons_zero, Option.some.injEq] at hx
  subst hx
  simpa using hg

end CGMF.Props
